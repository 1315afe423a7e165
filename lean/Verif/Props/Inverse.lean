import Verif.Model.Spi
import Verif.Props.Sampling
import Verif.Props.Lut1d
import Verif.Props.IndexMap
import Verif.Props.HalfDomain
import Mathlib.Data.Rat.Floor

/-! # Properties C56, C57: inverting one-dimensional LUTs -/

set_option linter.unusedSectionVars false

namespace CLF

variable {K : Type} [Field K] [LinearOrder K] [IsStrictOrderedRing K] [FloorRing K]

/-- A linear LUT1D node on finite three-channel pixels, given what each channel does. -/
theorem lut1d_pixels (A : Arith K) (compat : ℕ) (b : Base K) (d1 d2 : AVal) (a : Arr K)
    (h1 : b.attrs.get? "inBitDepth" = some d1) (h2 : b.attrs.get? "outBitDepth" = some d2)
    (harr : b.array = .ok a) (G : Fin 3 → K → K) (pixels : List (Fin 3 → K))
    (hG : ∀ p ∈ pixels, ∀ i : Fin 3, (do
      let x ← lutNormalize A b.indexMaps (some d1) (pyGet a.dims 0) i (.fin (p i))
      let y ← if b.styleOf "interpolation" = AVal.str "cubic" then a.lookup1DCubic x i
        else if b.flag "halfDomain" then a.lookup1DHalfDomain x i
        else a.lookup1DLinear x i
      pure (A.f32 y)) = .ok (.fin (G i (p i)))) :
    (Node.leaf .lut1d b).outOf A compat 3 (pixelValues pixels)
      = .ok (pixelValues (pixels.map fun p i => G i (p i))) := by
  rw [outOf_leaf]
  have e1 : b.attrE "inBitDepth" = .ok (some d1) := by simp [Base.attrE, Dict.getE, h1]
  have e2 : b.attrE "outBitDepth" = .ok (some d2) := by simp [Base.attrE, Dict.getE, h2]
  simp only [leafProcess, lut1dProcess, e1, e2, harr, py_ok_bind]
  rw [show pixelValues pixels = (pixels.map Spec.fins).flatten by
    simp [pixelValues, List.flatMap_def]]
  rw [viewLoop_pixels 3 (by omega) _ (fun l => (l.mapIdx fun i x => match x with
      | .fin v => if h : i < 3 then Flt.fin (G ⟨i, h⟩ v) else x
      | _ => x))]
  · simp only [py_ok_bind]
    congr 1
    rw [pixelValues, List.flatMap_def, List.map_map, List.map_map]
    congr 1
  · intro p hp
    obtain ⟨q, _, rfl⟩ := List.mem_map.mp hp
    simp [Spec.fins]
  · intro p hp
    obtain ⟨q, hq, rfl⟩ := List.mem_map.mp hp
    have hlen : (Spec.fins q).length = 3 := by simp [Spec.fins]
    rw [chanLoop_ok _ _ (fun i x => match x with
      | .fin v => if h : i < 3 then Flt.fin (G ⟨i, h⟩ v) else x
      | _ => x) _ (by omega)]
    · congr 1
    · intro i hi _
      have hi3 : i < 3 := by omega
      have := hG q hq ⟨i, hi3⟩
      simp only [Spec.fins, List.getElem_ofFn, hi3, dite_true]
      exact this
  · intro p hp
    obtain ⟨q, _, rfl⟩ := List.mem_map.mp hp
    simp [Spec.fins]

/-- The samples of a table as a list. -/
theorem column_pick {n c : ℕ} (V : Fin n → Fin (c + 1) → K) (j : Fin (c + 1)) :
    (List.range n).mapM (fun i => pyGet (Spec.rowMajor fun i j => Flt.fin (V i j)) (i * (c + 1) + j))
      = .ok ((List.ofFn fun i => V i j).map .fin) := by
  rw [range_mapM_ofFn n _ (fun i => Flt.fin (V i j))]
  · rw [List.map_ofFn]; rfl
  · intro i
    have := rowMajor_get (fun i j => Flt.fin (V i j)) i j i.2 j.2
    rwa [show (j : ℕ) + i * (c + 1) = i * (c + 1) + j from Nat.add_comm _ _] at this

theorem grid_lt {m : ℕ} {a b : K} (h : a < b) {i j : ℕ} (hij : i < j) :
    Spec.grid (m + 1) a b i < Spec.grid (m + 1) a b j := by
  have : (0 : K) < ((m + 1 : ℕ) : K) := Nat.cast_pos.mpr (by omega)
  have h2 : 0 < (b - a) / ((m + 1 : ℕ) : K) := div_pos (sub_pos.mpr h) this
  have h3 : (i : K) < j := Nat.cast_lt.mpr hij
  unfold Spec.grid
  have := mul_lt_mul_of_pos_right h3 h2
  linarith

/-- A point on the curve lies in the range. -/
theorem onCurve_mem {m : ℕ} {a b : K} (h : a < b) {s : Fin (m + 1 + 1) → K} {x y : K}
    (hc : Spec.OnCurve a b s x y) : a ≤ x ∧ x ≤ b := by
  obtain ⟨k, h1, h2, _⟩ := hc
  have e := C58_grid m a b
  constructor
  · refine le_trans ?_ h1
    rcases Nat.eq_zero_or_pos (k : ℕ) with h0 | h0
    · rw [h0, e.1]
    · exact (le_of_eq e.1.symm).trans (grid_lt h h0).le
  · refine le_trans h2 ?_
    rcases Nat.lt_or_ge ((k : ℕ) + 1) (m + 1) with h0 | h0
    · exact (grid_lt h h0).le.trans_eq e.2.1
    · have : (k : ℕ) + 1 = m + 1 := by omega
      rw [this, e.2.1]

/-- What the index-map inverse consists of. -/
theorem inverseIndexMap_eq {m c : ℕ} (hc : c = 0 ∨ c = 2) (V : Fin (m + 2) → Fin (c + 1) → K)
    (lo hi : Flt K) :
    ∃ b a, inverseIndexMap (m + 2) (c + 1) (Spec.rowMajor fun i j => .fin (V i j)) lo hi
        = .ok (.leaf .lut1d b :: if lo ≠ .fin 0 ∨ hi ≠ .fin 1 then
            [boundedRange "inverse_1d_range_1" (.fin 0) (.fin 1) lo hi] else []) ∧
      b.attrs.get? "inBitDepth" = some float16 ∧ b.attrs.get? "outBitDepth" = some float16 ∧
      b.attrs.get? "bypass" = none ∧
      b.styleOf "interpolation" ≠ .str "cubic" ∧ b.flag "halfDomain" = false ∧
      b.indexMaps = (List.ofFn fun j : Fin (c + 1) => (⟨m + 2, (List.ofFn fun i => V i j).map .fin,
        ((List.range (m + 2)).map fun i : ℕ => (i : K)).map .fin⟩ : IndexMap K)) ∧
      b.array = .ok a ∧ Table1D a
        (fun (k : Fin (m + 1 + 1)) (_ : Fin (c + 1)) => _root_.id ((k : ℕ) / ((m + 1 : ℕ) : K))) := by
  have hmaps : (List.range (c + 1)).mapM (fun ch => do
      let xs ← (List.range (m + 2)).mapM fun i =>
        pyGet (Spec.rowMajor fun i j => Flt.fin (V i j)) (i * (c + 1) + ch)
      pure (xs, (List.range (m + 2)).map fun (i : ℕ) => Flt.fin (i : K)))
      = .ok (List.ofFn fun j : Fin (c + 1) => ((List.ofFn fun i => V i j).map Flt.fin,
          ((List.range (m + 2)).map fun i : ℕ => (i : K)).map Flt.fin)) := by
    apply range_mapM_ofFn
    intro j
    simp only [column_pick V j, py_ok_bind, py_pure, List.map_map]
    rfl
  have hrows : (List.range (m + 2)).mapM (fun (i : ℕ) => do
      let v ← pyDivF (.fin (i : K)) (.fin (((m + 2 : ℕ) : K) - 1))
      pure (List.replicate (c + 1) v))
      = .ok (List.ofFn fun k : Fin (m + 1 + 1) => List.ofFn fun _ : Fin (c + 1) =>
          Flt.fin (_root_.id ((k : ℕ) / ((m + 1 : ℕ) : K)))) := by
    apply range_mapM_ofFn (m + 2)
    intro i
    have e : ((m + 2 : ℕ) : K) - 1 = ((m + 1 : ℕ) : K) := by push_cast; ring
    have hne : ((m + 1 : ℕ) : K) ≠ 0 := Nat.cast_ne_zero.mpr (by omega)
    rw [e, pyDivF_fin hne, py_ok_bind, List.ofFn_const]
    rfl
  have hlen : (List.ofFn fun k : Fin (m + 1 + 1) => List.ofFn fun _ : Fin (c + 1) =>
          Flt.fin (_root_.id ((k : ℕ) / ((m + 1 : ℕ) : K)))).flatten.length = (m + 2) * (c + 1) := by
    rw [List.length_flatten, List.map_ofFn]
    simp [Function.comp_def]
    ring
  have hdiv : pyDivNat ((m + 2) * (c + 1)) (c + 1) = .ok (m + 2) := by
    simp [pyDivNat]
  unfold inverseIndexMap
  rw [hmaps, hrows]
  rcases hc with rfl | rfl
  · simp only [py_ok_bind, show ¬ (0 + 1 = 3) by decide, if_false, List.ofFn_succ, List.ofFn_zero,
      pyGet_zero, py_pure, lut1dSetArray] at hlen hdiv ⊢
    rw [hlen, hdiv]
    refine ⟨_, _, rfl, rfl, rfl, rfl, ?_, rfl, ?_, rfl, ⟨[], rfl⟩, ?_, .inl rfl⟩
    · show AVal.str "linear" ≠ .str "cubic"
      decide
    · simp [setIndexMaps, Base.addElement, Base.indexMaps, newLut1d, newBase, Base.setUnlessEmpty,
        Base.setAttribute]
    · simp only [Spec.rowMajor, List.ofFn_succ, List.ofFn_zero]
      rfl
  · simp only [py_ok_bind, show (2 + 1 = 3) by decide, if_true, List.ofFn_succ, List.ofFn_zero,
      pyGet_zero, pyGet_succ, py_pure, lut1dSetArray] at hlen hdiv ⊢
    rw [hlen, hdiv]
    refine ⟨_, _, rfl, rfl, rfl, rfl, ?_, rfl, ?_, rfl, ⟨[], rfl⟩, ?_, .inr rfl⟩
    · show AVal.str "linear" ≠ .str "cubic"
      decide
    · simp [setIndexMaps, Base.addElement, Base.indexMaps, newLut1d, newBase, Base.setUnlessEmpty,
        Base.setAttribute]
    · simp only [Spec.rowMajor, List.ofFn_succ, List.ofFn_zero]
      rfl

/-! ### Curves -/

theorem grid_scale {m : ℕ} (lo hi : K) (k : ℕ) :
    Spec.grid m lo hi k = lo + (hi - lo) * Spec.grid m 0 1 k := by
  unfold Spec.grid; ring

/-- The curve on the unit interval. -/
theorem onCurve_unit {m : ℕ} {lo hi : K} (h : lo < hi) (s : Fin (m + 1) → K) (x y : K) :
    Spec.OnCurve lo hi s x y ↔ Spec.OnCurve 0 1 s ((x - lo) / (hi - lo)) y := by
  have hp : 0 < hi - lo := sub_pos.mpr h
  unfold Spec.OnCurve
  refine exists_congr fun k => ?_
  rw [grid_scale lo hi k, grid_scale lo hi (k + 1)]
  generalize Spec.grid m (0 : K) 1 (k : ℕ) = g
  generalize Spec.grid m (0 : K) 1 ((k : ℕ) + 1) = g'
  refine and_congr ?_ (and_congr ?_ ?_)
  · rw [le_div_iff₀ hp]
    constructor <;> intro h <;> linarith
  · rw [div_le_iff₀ hp]
    constructor <;> intro h <;> linarith
  · have e : Spec.affine (lo + (hi - lo) * g) (lo + (hi - lo) * g') (s k.castSucc) (s k.succ) x
        = Spec.affine g g' (s k.castSucc) (s k.succ) ((x - lo) / (hi - lo)) := by
      unfold Spec.affine
      rcases eq_or_ne g g' with rfl | hg
      · simp
      · have h1 : hi - lo ≠ 0 := hp.ne'
        have h2 : g' - g ≠ 0 := sub_ne_zero.mpr hg.symm
        have h3 : lo + (hi - lo) * g' - (lo + (hi - lo) * g) ≠ 0 := by
          rw [show lo + (hi - lo) * g' - (lo + (hi - lo) * g) = (hi - lo) * (g' - g) by ring]
          exact mul_ne_zero h1 h2
        rw [show lo + (hi - lo) * g' - (lo + (hi - lo) * g) = (hi - lo) * (g' - g) by ring]
        field_simp
        ring
    rw [e]

theorem grid01 (m k : ℕ) : Spec.grid m (0 : K) 1 k = (k : K) / m := by
  unfold Spec.grid; ring

/-- The lookup in a table is the curve through its samples. -/
theorem table_onCurve {m c : ℕ} {a : Arr K} {V : Fin (m + 1 + 1) → Fin (c + 1) → K}
    (ht : Table1D a V) (ch : ℕ) {t y : K}
    (h : Spec.OnCurve 0 1 (fun k => V k (Spec.column c ch)) t y) :
    a.lookup1DLinear (.fin t) ch = .ok (.fin y) := by
  obtain ⟨k, h1, h2, rfl⟩ := h
  rw [grid01] at h1 h2
  rw [C14_between (by omega) a V ht k k.2 ch t h1 h2, grid01, grid01]
  rfl

/-- The inverse index of a value. -/
theorem index_onCurve {m : ℕ} (s : Fin (m + 1 + 1) → K) (hs : StrictMono s) {t y : K}
    (h : Spec.OnCurve 0 1 s t y) (dim : ℕ) :
    IndexMap.process ⟨dim, (List.ofFn s).map .fin,
      ((List.range (m + 2)).map fun i : ℕ => (i : K)).map .fin⟩ (.fin y)
      = .ok (.fin (t * ((m + 1 : ℕ) : K))) := by
  obtain ⟨k, h1, h2, rfl⟩ := h
  rw [grid01] at h1 h2
  have hm : (0 : K) < ((m + 1 : ℕ) : K) := Nat.cast_pos.mpr (by omega)
  have hk := k.2
  have hlt : s k.castSucc < s k.succ := hs Fin.castSucc_lt_succ
  have hg : Spec.grid (m + 1) (0 : K) 1 k < Spec.grid (m + 1) 0 1 (k + 1) :=
    grid_lt zero_lt_one (Nat.lt_succ_self _)
  have hg2 : Spec.grid (m + 1) (0 : K) 1 (k + 1) - Spec.grid (m + 1) 0 1 k
      = 1 / ((m + 1 : ℕ) : K) := by rw [grid01, grid01]; push_cast; ring
  have hsort : (List.ofFn s).Pairwise (· < ·) := by
    rw [List.pairwise_iff_getElem]
    intro i j hi hj hij
    simp only [List.getElem_ofFn]
    exact hs hij
  have e := C13_interpolates dim (List.ofFn s) ((List.range (m + 2)).map fun i : ℕ => (i : K))
    (by simp) hsort k (by simp; omega) (Spec.affine (Spec.grid (m + 1) 0 1 k) (Spec.grid (m + 1) 0 1 (k + 1))
      (s k.castSucc) (s k.succ) t)
  simp only [List.getElem_ofFn, List.getElem_map, List.getElem_range] at e
  have a1 : (⟨(k : ℕ), by omega⟩ : Fin (m + 1 + 1)) = k.castSucc := rfl
  have a2 : (⟨(k : ℕ) + 1, by omega⟩ : Fin (m + 1 + 1)) = k.succ := rfl
  have hmem : 0 ≤ (t - (k : K) / ((m + 1 : ℕ) : K)) := by linarith
  have hs' : 0 < s k.succ - s k.castSucc := sub_pos.mpr hlt
  have hval : Spec.affine (Spec.grid (m + 1) 0 1 k) (Spec.grid (m + 1) 0 1 (k + 1))
      (s k.castSucc) (s k.succ) t = s k.castSucc +
        (t * ((m + 1 : ℕ) : K) - k) * (s k.succ - s k.castSucc) := by
    unfold Spec.affine
    rw [hg2, grid01]
    field_simp
  have t1 : (k : K) ≤ t * ((m + 1 : ℕ) : K) := (div_le_iff₀ hm).mp h1
  have t2 : t * ((m + 1 : ℕ) : K) ≤ k + 1 := by
    have := (le_div_iff₀ hm).mp h2
    push_cast at this ⊢
    linarith
  rw [a1, a2] at e
  rw [e]
  · rw [hval]
    congr 2
    unfold Spec.affine
    push_cast
    field_simp
    ring
  · rw [hval]
    have := mul_nonneg (sub_nonneg.mpr t1) hs'.le
    linarith
  · rw [hval]
    have : (t * ((m + 1 : ℕ) : K) - k) * (s k.succ - s k.castSucc) ≤ 1 * (s k.succ - s k.castSucc) :=
      mul_le_mul_of_nonneg_right (by linarith) hs'.le
    linarith

/-- Every input of the range has a point on the curve. -/
theorem onCurve_of_input {m : ℕ} {lo hi : K} (h : lo < hi) (s : Fin (m + 1 + 1) → K) {x : K}
    (h1 : lo ≤ x) (h2 : x ≤ hi) : ∃ y, Spec.OnCurve lo hi s x y := by
  have e := C58_grid m lo hi
  have : ∃ k : Fin (m + 1), Spec.grid (m + 1) lo hi k ≤ x ∧ x ≤ Spec.grid (m + 1) lo hi (k + 1) := by
    by_contra hc
    push Not at hc
    have key : ∀ k, k ≤ m + 1 → Spec.grid (m + 1) lo hi k ≤ x := by
      intro k
      induction k with
      | zero => intro _; rw [e.1]; exact h1
      | succ k ih => intro hk; exact (hc ⟨k, by omega⟩ (ih (by omega))).le
    have hm := hc ⟨m, by omega⟩ (key m (by omega))
    rw [show ((⟨m, by omega⟩ : Fin (m + 1)) : ℕ) + 1 = m + 1 from rfl, e.2.1] at hm
    exact absurd h2 (not_le.mpr hm)
  obtain ⟨k, a, b⟩ := this
  exact ⟨_, k, a, b, rfl⟩

theorem affine_between {a b c d x : K} (hab : a < b) (hcd : c ≤ d) (h1 : a ≤ x) (h2 : x ≤ b) :
    c ≤ Spec.affine a b c d x ∧ Spec.affine a b c d x ≤ d := by
  rcases eq_or_lt_of_le h1 with rfl | h
  · rw [affine_left]; exact ⟨le_rfl, hcd⟩
  · have := affine_mem (c := c) (d := d) h h2
    rwa [min_eq_left hcd, max_eq_right hcd] at this

/-- Every output between the first and the last sample has a point on the curve. -/
theorem onCurve_of_output {m : ℕ} {lo hi : K} (h : lo < hi) (s : Fin (m + 1 + 1) → K)
    (hs : StrictMono s) {y : K} (h1 : s 0 ≤ y) (h2 : y ≤ s (Fin.last (m + 1))) :
    ∃ x, Spec.OnCurve lo hi s x y := by
  have : ∃ k : Fin (m + 1), s k.castSucc ≤ y ∧ y ≤ s k.succ := by
    by_contra hc
    push Not at hc
    have key : ∀ k (hk : k < m + 1 + 1), s ⟨k, hk⟩ ≤ y := by
      intro k
      induction k with
      | zero => intro _; exact h1
      | succ k ih => intro hk; exact (hc ⟨k, by omega⟩ (ih (by omega))).le
    have hm := hc ⟨m, by omega⟩ (key m (by omega))
    exact absurd h2 (not_le.mpr hm)
  obtain ⟨k, a, b⟩ := this
  have hlt : s k.castSucc < s k.succ := hs Fin.castSucc_lt_succ
  have hg : Spec.grid (m + 1) lo hi k < Spec.grid (m + 1) lo hi (k + 1) :=
    grid_lt h (Nat.lt_succ_self _)
  refine ⟨Spec.affine (s k.castSucc) (s k.succ) (Spec.grid (m + 1) lo hi k)
    (Spec.grid (m + 1) lo hi (k + 1)) y, k, ?_, ?_, ?_⟩
  · exact (affine_between hlt hg.le a b).1
  · exact (affine_between hlt hg.le a b).2
  · have e1 : s k.succ - s k.castSucc ≠ 0 := (sub_pos.mpr hlt).ne'
    have e2 : Spec.grid (m + 1) lo hi (k + 1) - Spec.grid (m + 1) lo hi k ≠ 0 := (sub_pos.mpr hg).ne'
    unfold Spec.affine
    field_simp
    ring

/-! ### C56 -/

/-- The forward nodes evaluate the curve. -/
theorem spi1dForward_curve (A : Arith K) (hA : A.Exact) (compat : ℕ) {m c : ℕ} (hc : c = 0 ∨ c = 2)
    (V : Fin (m + 2) → Fin (c + 1) → K) {lo hi : K} (h : lo < hi) :
    ∃ ns, spi1dForward (.str "linear") (c + 1) (Spec.rowMajor fun i j => .fin (V i j))
        (.fin lo) (.fin hi) = .ok ns ∧
      ∀ pairs : List ((Fin 3 → K) × (Fin 3 → K)),
        (∀ p ∈ pairs, ∀ i : Fin 3,
          Spec.OnCurve lo hi (fun k => V k (Spec.column c i)) (p.1 i) (p.2 i)) →
        processList A compat ns (pixelValues (pairs.map Prod.fst)) 3
          = .ok (pixelValues (pairs.map Prod.snd)) := by
  have hlen : (Spec.rowMajor fun i j => Flt.fin (V i j)).length = (m + 2) * (c + 1) := by
    unfold Spec.rowMajor
    rw [List.length_flatten, List.map_ofFn]
    simp [Function.comp_def]
    ring
  have hdiv : pyDivNat ((m + 2) * (c + 1)) (c + 1) = .ok (m + 2) := by
    simp [pyDivNat]
  unfold spi1dForward lut1dSetArray
  rw [hlen, hdiv]
  simp only [py_ok_bind, py_pure]
  refine ⟨_, rfl, fun pairs hp => ?_⟩
  generalize hb : Base.addElement (newLut1d float16 float16 (.str "lut1d") (.str "lut1d")
    (.str "linear")) _ = b
  have ht : ∃ a, b.array = .ok a ∧ Table1D (m := m + 1) a V ∧
      b.attrs.get? "inBitDepth" = some float16 ∧ b.attrs.get? "outBitDepth" = some float16 ∧
      b.attrs.get? "bypass" = none ∧ b.styleOf "interpolation" ≠ .str "cubic" ∧
      b.flag "halfDomain" = false ∧ b.indexMaps = [] := by
    subst hb
    refine ⟨_, rfl, ⟨⟨[], rfl⟩, rfl, hc⟩, rfl, rfl, rfl, ?_, rfl, rfl⟩
    show AVal.str "linear" ≠ .str "cubic"
    decide
  obtain ⟨a, ha, ht, d1, d2, d3, d4, d5, d6⟩ := ht
  have d3 : (Node.leaf .lut1d b).attr "bypass" = none := d3
  have hlut : (Node.leaf .lut1d b).outOf A compat 3 (pixelValues (pairs.map fun p i =>
      (p.1 i - lo) / (hi - lo))) = .ok (pixelValues (pairs.map Prod.snd)) := by
    have hch : ∃ G : Fin 3 → K → K, ∀ p ∈ pairs, ∀ i : Fin 3,
        G i ((p.1 i - lo) / (hi - lo)) = p.2 i ∧
        a.lookup1DLinear (.fin ((p.1 i - lo) / (hi - lo))) i
          = .ok (.fin (G i ((p.1 i - lo) / (hi - lo)))) := by
      refine ⟨fun i t => match a.lookup1DLinear (.fin t) i with | .ok (.fin y) => y | _ => 0,
        fun p hp' i => ?_⟩
      have e := table_onCurve ht i ((onCurve_unit h _ _ _).mp (hp p hp' i))
      simp only [e, and_self]
    obtain ⟨G, hG⟩ := hch
    rw [lut1d_pixels A compat b float16 float16 a d1 d2 ha G]
    · rw [List.map_map]
      congr 2
      apply List.map_congr_left
      intro p hp'
      funext i
      exact (hG p hp' i).1
    · intro q hq i
      obtain ⟨p, hp', rfl⟩ := List.mem_map.mp hq
      have hn : (bitDepthToNormalized (.fin ((p.1 i - lo) / (hi - lo))) (some float16) : Flt K)
          = .fin ((p.1 i - lo) / (hi - lo)) := by
        rw [toNormalized_fin, bitDepthSize_eq_fullScale,
          show (Spec.fullScale (some float16) : K) = 1 from rfl, div_one]
      simp only [d6, lutNormalize, List.length_nil, Nat.not_lt_zero, if_false, py_pure, py_ok_bind,
        hA _, hn, if_neg d4, d5, Bool.false_eq_true, (hG p hp' i).2]
  have hfst : ∀ p ∈ pairs, ∀ i, lo ≤ p.1 i ∧ p.1 i ≤ hi :=
    fun p hp' i => onCurve_mem h (hp p hp' i)
  split_ifs with hr
  · have h2 : (boundedRange "range" (.fin lo) (.fin hi) (.fin 0) (.fin 1) : Node K).attr "bypass"
        = none := rfl
    rw [List.singleton_append, processList_two A hA compat 3 _ _ h2 d3,
      boundedRange_pixels A hA compat 3 _ h.ne, py_ok_bind, ← hlut, List.map_map]
    congr 2
    apply List.map_congr_left
    intro p hp'
    funext i
    obtain ⟨m1, m2⟩ := affine_unit_mem h (hfst p hp' i).1 (hfst p hp' i).2
    simp only [Function.comp, affine_unit]
    rw [max_eq_right m1, min_eq_right m2]
  · push Not at hr
    simp only [Flt.fin.injEq] at hr
    obtain ⟨rfl, rfl⟩ := hr
    rw [List.nil_append, processList_one A hA compat 3 _ d3, ← hlut]
    simp only [sub_zero, div_one]

/-- The index-map inverse evaluates the inverse of the curve. -/
theorem inverseIndexMap_curve (A : Arith K) (hA : A.Exact) (compat : ℕ) {m c : ℕ}
    (hc : c = 0 ∨ c = 2) (V : Fin (m + 2) → Fin (c + 1) → K) (hV : ∀ j, StrictMono fun k => V k j)
    {lo hi : K} (h : lo < hi) :
    ∃ ns, inverseIndexMap (m + 2) (c + 1) (Spec.rowMajor fun i j => .fin (V i j))
        (.fin lo) (.fin hi) = .ok ns ∧
      ∀ pairs : List ((Fin 3 → K) × (Fin 3 → K)),
        (∀ p ∈ pairs, ∀ i : Fin 3,
          Spec.OnCurve lo hi (fun k => V k (Spec.column c i)) (p.1 i) (p.2 i)) →
        processList A compat ns (pixelValues (pairs.map Prod.snd)) 3
          = .ok (pixelValues (pairs.map Prod.fst)) := by
  obtain ⟨b, a, e, d1, d2, d3, d4, d5, d6, ha, ht⟩ := inverseIndexMap_eq hc V (.fin lo) (.fin hi)
  have d3 : (Node.leaf .lut1d b).attr "bypass" = none := d3
  refine ⟨_, e, fun pairs hp => ?_⟩
  have hm : (0 : K) < ((m + 1 : ℕ) : K) := Nat.cast_pos.mpr (by omega)
  have hfst : ∀ p ∈ pairs, ∀ i, lo ≤ p.1 i ∧ p.1 i ≤ hi :=
    fun p hp' i => onCurve_mem h (hp p hp' i)
  have hlut : (Node.leaf .lut1d b).outOf A compat 3 (pixelValues (pairs.map Prod.snd))
      = .ok (pixelValues (pairs.map fun p i => (p.1 i - lo) / (hi - lo))) := by
    have hnorm : ∀ p ∈ pairs, ∀ i : Fin 3,
        lutNormalize A b.indexMaps (some float16) (pyGet a.dims 0) i (.fin (p.2 i))
          = .ok (.fin ((p.1 i - lo) / (hi - lo))) := by
      intro p hp' i
      have hd : pyGet a.dims 0 = .ok (m + 2) := by
        obtain ⟨rest, hd⟩ := ht.dims
        rw [hd]; rfl
      have hidx := index_onCurve _ (hV (Spec.column c i))
        ((onCurve_unit h _ _ _).mp (hp p hp' i)) (m + 2)
      have hdv : (p.1 i - lo) / (hi - lo) * ((m + 1 : ℕ) : K) / (((m + 2 : ℕ) : K) - 1)
          = (p.1 i - lo) / (hi - lo) := by
        rw [show ((m + 2 : ℕ) : K) - 1 = ((m + 1 : ℕ) : K) by push_cast; ring,
          mul_div_cancel_right₀ _ hm.ne']
      have hne : ((m + 2 : ℕ) : K) - 1 ≠ 0 := by
        rw [show ((m + 2 : ℕ) : K) - 1 = ((m + 1 : ℕ) : K) by push_cast; ring]; exact hm.ne'
      rw [d6, hd]
      unfold lutNormalize
      rcases hc with rfl | rfl
      · have hcol : Spec.column 0 i = 0 := by simp [Spec.column]
        rw [hcol] at hidx
        have hget : pyGet (List.ofFn fun j : Fin (0 + 1) => (⟨m + 2, (List.ofFn fun k => V k j).map .fin,
            ((List.range (m + 2)).map fun i : ℕ => (i : K)).map .fin⟩ : IndexMap K)) 0
            = .ok ⟨m + 2, (List.ofFn fun k => V k 0).map .fin,
            ((List.range (m + 2)).map fun i : ℕ => (i : K)).map .fin⟩ := rfl
        simp only [List.length_ofFn, show ¬ (1 < 0 + 1) by decide, if_false,
          show (0 < 0 + 1) by decide, if_true, hget, py_ok_bind,
          hidx, py_pure, hA _]
        simp only [Flt.fin_div hne, hdv]
      · have hget : pyGet (List.ofFn fun j : Fin (2 + 1) => (⟨m + 2, (List.ofFn fun k => V k j).map .fin,
            ((List.range (m + 2)).map fun i : ℕ => (i : K)).map .fin⟩ : IndexMap K)) i
            = .ok ⟨m + 2, (List.ofFn fun k => V k (Spec.column 2 i)).map .fin,
            ((List.range (m + 2)).map fun i : ℕ => (i : K)).map .fin⟩ := by
          fin_cases i <;> rfl
        simp only [List.length_ofFn, show (1 < 2 + 1) by decide, if_true, hget, py_ok_bind, hidx,
          py_pure, hA _]
        simp only [Flt.fin_div hne, hdv]
    have hch : ∃ G : Fin 3 → K → K, ∀ p ∈ pairs, ∀ i : Fin 3,
        G i (p.2 i) = (p.1 i - lo) / (hi - lo) := by
      refine ⟨fun i t => match lutNormalize A b.indexMaps (some float16) (pyGet a.dims 0) i (.fin t)
        with | .ok (.fin y) => y | _ => 0, fun p hp' i => ?_⟩
      simp only [hnorm p hp' i]
    obtain ⟨G, hG⟩ := hch
    rw [lut1d_pixels A compat b float16 float16 a d1 d2 ha G]
    · rw [List.map_map]
      congr 2
      apply List.map_congr_left
      intro p hp'
      funext i
      exact hG p hp' i
    · intro q hq i
      obtain ⟨p, hp', rfl⟩ := List.mem_map.mp hq
      obtain ⟨m1, m2⟩ := affine_unit_mem h (hfst p hp' i).1 (hfst p hp' i).2
      simp only [hnorm p hp' i, py_pure, py_ok_bind, hA _, if_neg d4, d5, Bool.false_eq_true, if_false,
        identity_lookup m c a ht, hG p hp' i]
      rw [max_eq_right m1, min_eq_right m2]
  split_ifs with hr
  · have h2 : (boundedRange "inverse_1d_range_1" (.fin 0) (.fin 1) (.fin lo) (.fin hi) : Node K).attr
        "bypass" = none := rfl
    rw [processList_two A hA compat 3 _ _ d3 h2, hlut, py_ok_bind,
      boundedRange_pixels A hA compat 3 _ zero_ne_one, List.map_map]
    congr 2
    apply List.map_congr_left
    intro p hp'
    funext i
    simp only [Function.comp, affine_back h]
    rw [max_eq_right (hfst p hp' i).1, min_eq_right (hfst p hp' i).2]
  · push Not at hr
    simp only [Flt.fin.injEq] at hr
    obtain ⟨rfl, rfl⟩ := hr
    rw [processList_one A hA compat 3 _ d3, hlut]
    simp only [sub_zero, div_one]

/-- C56: the inverse undoes the forward LUT on its domain, and the forward LUT undoes
the inverse between the first and the last sample, exactly.  (One or three columns; a
two-column table is addressed wrongly by the lookup itself, see C76.) -/
theorem C56_inverse (A : Arith K) (hA : A.Exact) (compat : ℕ) {m c : ℕ} (hc : c = 0 ∨ c = 2)
    (V : Fin (m + 2) → Fin (c + 1) → K) (hV : ∀ j, StrictMono fun k => V k j)
    {lo hi : K} (h : lo < hi) :
    ∃ fwd inv,
      spi1dForward (.str "linear") (c + 1) (Spec.rowMajor fun i j => .fin (V i j))
        (.fin lo) (.fin hi) = .ok fwd ∧
      inverseIndexMap (m + 2) (c + 1) (Spec.rowMajor fun i j => .fin (V i j))
        (.fin lo) (.fin hi) = .ok inv ∧
      (∀ xs : List (Fin 3 → K), (∀ x ∈ xs, ∀ i, lo ≤ x i ∧ x i ≤ hi) → ∃ w,
        processList A compat fwd (pixelValues xs) 3 = .ok w ∧
        processList A compat inv w 3 = .ok (pixelValues xs)) ∧
      (∀ ys : List (Fin 3 → K), (∀ y ∈ ys, ∀ i : Fin 3, V 0 (Spec.column c i) ≤ y i ∧
          y i ≤ V (Fin.last (m + 1)) (Spec.column c i)) → ∃ w,
        processList A compat inv (pixelValues ys) 3 = .ok w ∧
        processList A compat fwd w 3 = .ok (pixelValues ys)) := by
  obtain ⟨fwd, e1, hf⟩ := spi1dForward_curve A hA compat hc V h
  obtain ⟨inv, e2, hi'⟩ := inverseIndexMap_curve A hA compat hc V hV h
  refine ⟨fwd, inv, e1, e2, fun xs hx => ?_, fun ys hy => ?_⟩
  · have : ∀ x : Fin 3 → K, ∃ y : Fin 3 → K, x ∈ xs → ∀ i : Fin 3,
        Spec.OnCurve lo hi (fun k => V k (Spec.column c i)) (x i) (y i) := by
      intro x
      by_cases hm : x ∈ xs
      · choose y hy using fun i : Fin 3 => onCurve_of_input h (fun k => V k (Spec.column c i))
          (hx x hm i).1 (hx x hm i).2
        exact ⟨y, fun _ => hy⟩
      · exact ⟨x, fun h => absurd h hm⟩
    choose f hf' using this
    have hp : ∀ p ∈ xs.map (fun x => (x, f x)), ∀ i : Fin 3,
        Spec.OnCurve lo hi (fun k => V k (Spec.column c i)) (p.1 i) (p.2 i) := by
      intro p hp
      obtain ⟨x, hm, rfl⟩ := List.mem_map.mp hp
      exact hf' x hm
    have a1 := hf _ hp
    have a2 := hi' _ hp
    simp only [List.map_map, Function.comp_def, List.map_id'] at a1 a2
    exact ⟨_, a1, a2⟩
  · have : ∀ y : Fin 3 → K, ∃ x : Fin 3 → K, y ∈ ys → ∀ i : Fin 3,
        Spec.OnCurve lo hi (fun k => V k (Spec.column c i)) (x i) (y i) := by
      intro y
      by_cases hm : y ∈ ys
      · choose x hx using fun i : Fin 3 => onCurve_of_output h (fun k => V k (Spec.column c i))
          (hV _) (hy y hm i).1 (hy y hm i).2
        exact ⟨x, fun _ => hx⟩
      · exact ⟨y, fun h => absurd h hm⟩
    choose f hf' using this
    have hp : ∀ p ∈ ys.map (fun y => (f y, y)), ∀ i : Fin 3,
        Spec.OnCurve lo hi (fun k => V k (Spec.column c i)) (p.1 i) (p.2 i) := by
      intro p hp
      obtain ⟨x, hm, rfl⟩ := List.mem_map.mp hp
      exact hf' x hm
    have a1 := hf _ hp
    have a2 := hi' _ hp
    simp only [List.map_map, Function.comp_def, List.map_id'] at a1 a2
    exact ⟨_, a2, a1⟩

/-- C56: value by value, the inverse returns the point of the sampled curve. -/
theorem C56_curve (A : Arith K) (hA : A.Exact) (compat : ℕ) {m c : ℕ}
    (hc : c = 0 ∨ c = 2) (V : Fin (m + 2) → Fin (c + 1) → K) (hV : ∀ j, StrictMono fun k => V k j)
    {lo hi : K} (h : lo < hi) :
    ∃ inv, inverseIndexMap (m + 2) (c + 1) (Spec.rowMajor fun i j => .fin (V i j))
        (.fin lo) (.fin hi) = .ok inv ∧
      ∀ pairs : List ((Fin 3 → K) × (Fin 3 → K)),
        (∀ p ∈ pairs, ∀ i : Fin 3,
          Spec.OnCurve lo hi (fun k => V k (Spec.column c i)) (p.1 i) (p.2 i)) →
        processList A compat inv (pixelValues (pairs.map Prod.snd)) 3
          = .ok (pixelValues (pairs.map Prod.fst)) :=
  inverseIndexMap_curve A hA compat hc V hV h

/-- Three rows, one column, on [-1, 3]. -/
example : ∃ fwd inv,
    spi1dForward (.str "linear") 1 (Spec.rowMajor fun (i : Fin 3) (_ : Fin 1) =>
      Flt.fin ((i : ℕ) * (i : ℕ) : ℚ)) (.fin (-1)) (.fin 3) = .ok fwd ∧
    inverseIndexMap 3 1 (Spec.rowMajor fun (i : Fin 3) (_ : Fin 1) =>
      Flt.fin ((i : ℕ) * (i : ℕ) : ℚ)) (.fin (-1)) (.fin 3) = .ok inv ∧
    ∃ w, processList ratArith 2 fwd (pixelValues [![0, 2, 5 / 2]]) 3 = .ok w ∧
      processList ratArith 2 inv w 3 = .ok (pixelValues [![0, 2, 5 / 2]]) := by
  obtain ⟨fwd, inv, h1, h2, h3, _⟩ := C56_inverse ratArith (fun _ => rfl) 2 (m := 1) (c := 0)
    (.inl rfl) (fun i _ => ((i : ℕ) * (i : ℕ) : ℚ)) (by
      intro j a b hab
      show ((a : ℕ) * (a : ℕ) : ℚ) < (b : ℕ) * (b : ℕ)
      exact_mod_cast Nat.mul_self_lt_mul_self hab) (lo := -1) (hi := 3) (by norm_num)
  refine ⟨fwd, inv, h1, h2, h3 _ ?_⟩
  intro x hx i
  rw [List.mem_singleton] at hx
  subst hx
  fin_cases i <;> constructor <;> simp <;> norm_num

/-! ### C57 -/

/-- The search finds the first larger sample, or stops at the last. -/
theorem inverseSearch_spec {n c : ℕ} (V : Fin n → Fin (c + 1) → K) (j : Fin (c + 1)) (y : K)
    (k i : ℕ) (prev : Option ℕ) (hk : i + k + 1 = n) :
    ∃ r, ∃ hr : r < n,
      inverseSearch (Spec.rowMajor fun i j => Flt.fin (V i j)) (c + 1) j (.fin y) prev
        (List.range' i (k + 1)) = .ok r ∧ i ≤ r ∧
      (∀ l (hl : l < n), i ≤ l → l < r → V ⟨l, hl⟩ j ≤ y) ∧ (y < V ⟨r, hr⟩ j ∨ r + 1 = n) := by
  induction k generalizing i prev with
  | zero =>
    have hi : i < n := by omega
    have hg := rowMajor_get (fun i j => Flt.fin (V i j)) i j hi j.2
    rw [show (j : ℕ) + i * (c + 1) = i * (c + 1) + j from Nat.add_comm _ _] at hg
    refine ⟨i, hi, ?_, le_rfl, by intro l _ h1 h2; omega, .inr (by omega)⟩
    simp only [List.range'_succ, List.range'_zero, inverseSearch, hg, py_ok_bind]
    split_ifs <;> rfl
  | succ k ih =>
    have hi : i < n := by omega
    have hg := rowMajor_get (fun i j => Flt.fin (V i j)) i j hi j.2
    rw [show (j : ℕ) + i * (c + 1) = i * (c + 1) + j from Nat.add_comm _ _] at hg
    rw [List.range'_succ, inverseSearch, hg, py_ok_bind]
    simp only [Flt.lt_fin, decide_eq_true_eq]
    split_ifs with h
    · exact ⟨i, hi, rfl, le_rfl, by intro l _ h1 h2; omega, .inl h⟩
    · obtain ⟨r, hr, e, h1, h2, h3⟩ := ih (i + 1) (some i) (by omega)
      refine ⟨r, hr, e, by omega, ?_, h3⟩
      intro l hl h4 h5
      rcases Nat.eq_or_lt_of_le h4 with rfl | h6
      · exact not_lt.mp h
      · exact h2 l hl h6 h5

/-- Every finite value has a position; between the first and last sample it is the one
on the curve. -/
theorem inverseAt_spec {m c : ℕ} (V : Fin (m + 2) → Fin (c + 1) → K)
    (hV : ∀ j, StrictMono fun k => V k j) (j : Fin (c + 1)) (y : K) :
    ∃ t, inverseAt (m + 2) (c + 1) (Spec.rowMajor fun i j => Flt.fin (V i j)) j (.fin y)
        = .ok (.fin t) ∧
      (V 0 j ≤ y → y ≤ V (Fin.last (m + 1)) j → Spec.OnCurve (m := m + 1) 0 1 (fun k => V k j) t y) ∧
      (y < V 0 j → t = 0) := by
  have hm : (0 : K) < ((m + 1 : ℕ) : K) := Nat.cast_pos.mpr (by omega)
  have e1 : ((m + 2 : ℕ) : K) - 1 = ((m + 1 : ℕ) : K) := by push_cast; ring
  obtain ⟨r, hr, e, _, h2, h3⟩ := inverseSearch_spec V j y (m + 1) 0 none (by omega)
  rw [← List.range_eq_range'] at e
  have e : inverseSearch (Spec.rowMajor fun i j => Flt.fin (V i j)) (c + 1) j (.fin y) none
      (List.range (m + 2)) = .ok r := e
  unfold inverseAt
  rw [e, py_ok_bind]
  have hmin : min (m + 2 - 1) r = r := by omega
  simp only [hmin]
  rcases Nat.eq_zero_or_pos r with rfl | hpos
  · refine ⟨0, ?_, ?_, fun _ => rfl⟩
    · have hz : (Flt.fin 0 + Flt.fin ((0 - 1 : ℕ) : K) : Flt K) = .fin 0 := by simp
      simp only [Nat.zero_sub, if_true, py_pure, py_ok_bind] at hz ⊢
      rw [hz, e1, pyDivF_fin hm.ne', zero_div]
    · intro h _
      rcases h3 with h3 | h3
      · exact absurd h (not_le.mpr h3)
      · omega
  · have hlow := rowMajor_get (fun i j => Flt.fin (V i j)) (r - 1) j (by omega) j.2
    have hhigh := rowMajor_get (fun i j => Flt.fin (V i j)) r j hr j.2
    rw [show (j : ℕ) + (r - 1) * (c + 1) = (r - 1) * (c + 1) + j from Nat.add_comm _ _] at hlow
    rw [show (j : ℕ) + r * (c + 1) = r * (c + 1) + j from Nat.add_comm _ _] at hhigh
    have hlt : V ⟨r - 1, by omega⟩ j < V ⟨r, hr⟩ j := hV j (by
      show r - 1 < r
      omega)
    have hne : V ⟨r, hr⟩ j - V ⟨r - 1, by omega⟩ j ≠ 0 := (sub_pos.mpr hlt).ne'
    rw [if_neg (by omega)]
    simp only [hlow, hhigh, py_ok_bind, Flt.fin_sub, pyDivF_fin hne, Flt.fin_add]
    rw [e1, pyDivF_fin hm.ne']
    refine ⟨_, rfl, fun h4 h5 => ?_, fun h4 => ?_⟩
    · obtain ⟨k, rfl⟩ : ∃ k, r = k + 1 := ⟨r - 1, by omega⟩
      have hk : k < m + 1 := by omega
      simp only [Nat.add_sub_cancel] at hlt hne ⊢
      have hle : V ⟨k, by omega⟩ j ≤ y := h2 k (by omega) (by omega) (by omega)
      have hge : y ≤ V ⟨k + 1, hr⟩ j := by
        rcases h3 with h3 | h3
        · exact h3.le
        · have : (⟨k + 1, hr⟩ : Fin (m + 2)) = Fin.last (m + 1) := by ext; simp; omega
          rw [this]; exact h5
      have ha1 : 0 ≤ (y - V ⟨k, by omega⟩ j) / (V ⟨k + 1, hr⟩ j - V ⟨k, by omega⟩ j) :=
        div_nonneg (by linarith) (sub_pos.mpr hlt).le
      have ha2 : (y - V ⟨k, by omega⟩ j) / (V ⟨k + 1, hr⟩ j - V ⟨k, by omega⟩ j) ≤ 1 :=
        (div_le_one (sub_pos.mpr hlt)).mpr (by linarith)
      refine ⟨⟨k, hk⟩, ?_, ?_, ?_⟩
      · rw [grid01]
        exact div_le_div_of_nonneg_right (by simpa using ha1) hm.le
      · rw [grid01]
        refine div_le_div_of_nonneg_right ?_ hm.le
        push_cast
        linarith
      · rw [grid01, grid01]
        simp only [Fin.castSucc_mk, Fin.succ_mk]
        unfold Spec.affine
        push_cast
        have : (m : K) + 1 ≠ 0 := by
          have := hm.ne'
          push_cast at this
          exact this
        field_simp
        ring
    · have := h2 0 (by omega) (by omega) hpos
      exact absurd h4 (not_lt.mpr this)

/-- The entry of the half-domain inverse for a half value. -/
def invEntry {n : ℕ} (t : Fin n → K → K) (j : Fin n) : Flt K → Flt K
  | .fin y => .fin (t j y)
  | v => v

/-- What the half-domain inverse consists of: its rows at finite patterns hold the
positions of the values the patterns stand for. -/
theorem inverseHalfDomain_eq {m c : ℕ} (hc : c = 0 ∨ c = 2) (V : Fin (m + 2) → Fin (c + 1) → K)
    (hV : ∀ j, StrictMono fun k => V k j) (lo hi : Flt K) (raw : Bool) :
    ∃ b a T W, inverseHalfDomain (m + 2) (c + 1) (Spec.rowMajor fun i j => .fin (V i j)) lo hi raw
        = .ok [.leaf .lut1d b] ∧ HalfLut b float16 a ∧ b.attrs.get? "outBitDepth" = some float16 ∧
      b.attrs.get? "bypass" = none ∧ HalfTable (c := c) a T W ∧
      ∀ n, Spec.halfFinite n → ∀ j : Fin (c + 1),
        inverseAt (m + 2) (c + 1) (Spec.rowMajor fun i j => Flt.fin (V i j)) j
          (.fin (Spec.halfValue n)) = .ok (.fin (W n j)) := by
  choose t ht _ using fun j y => inverseAt_spec V hV j y
  have hrow : ∀ N : ℕ, (List.range N).mapM (fun (i : ℕ) => do
      let input : Flt K := half.decode i
      (List.range (c + 1)).mapM fun ch =>
        if input.isNaN then pure input
        else if input.isInf then pure input
        else inverseAt (m + 2) (c + 1) (Spec.rowMajor fun i j => Flt.fin (V i j)) ch input)
      = .ok (List.ofFn fun k : Fin N => List.ofFn fun j : Fin (c + 1) =>
          invEntry t j (half.decode (k : ℕ))) := by
    intro N
    apply range_mapM_ofFn N
    intro i
    apply range_mapM_ofFn (c + 1)
    intro j
    cases (half.decode (i : ℕ) : Flt K) with
    | fin y =>
      show inverseAt _ _ _ _ _ = _
      exact ht j y
    | inf s => rfl
    | nan => rfl
  have hlen : ∀ N : ℕ, (List.ofFn fun k : Fin N => List.ofFn fun j : Fin (c + 1) =>
          invEntry t j (half.decode (k : ℕ))).flatten.length = N * (c + 1) := by
    intro N
    rw [List.length_flatten, List.map_ofFn]
    simp [Function.comp_def]
  have hdiv : ∀ N : ℕ, pyDivNat (N * (c + 1)) (c + 1) = .ok N := by
    intro N
    simp [pyDivNat]
  have h1 := hrow 65536
  have h2 := hlen 65536
  obtain ⟨R, hR⟩ : ∃ R, (List.ofFn fun k : Fin 65536 => List.ofFn fun j : Fin (c + 1) =>
          invEntry t j (half.decode (k : ℕ))) = R := ⟨_, rfl⟩
  rw [hR] at h1 h2
  unfold inverseHalfDomain
  rw [h1]
  simp only [py_ok_bind, lut1dSetArray, h2]
  rw [hdiv]
  simp only [py_ok_bind, py_pure]
  have hfacts : ∃ b0 : Base K, newLut1d float16 float16 (.str "inverse_1d_lut") (.str "inverse_1d_lut")
      (.str "linear") (if raw then AVal.bool true else .str "") (.bool true) = b0 ∧
      b0.elements = [] ∧ b0.attrs.get? "inBitDepth" = some float16 ∧
      b0.attrs.get? "outBitDepth" = some float16 ∧ b0.attrs.get? "interpolation" = some (.str "linear") ∧
      b0.attrs.get? "halfDomain" = some (.bool true) ∧ b0.attrs.get? "bypass" = none := by
    refine ⟨_, rfl, ?_⟩
    cases raw <;> exact ⟨rfl, rfl, rfl, rfl, rfl, rfl⟩
  obtain ⟨b0, hb0, he, hin, hout, hi', hh, hby⟩ := hfacts
  rw [hb0]
  refine ⟨_, ⟨[65536, c + 1], R.flatten, bitDepthIsInteger (b0.attrs.get? "outBitDepth"),
    b0.flag "rawHalfs", "string"⟩, fun k j => invEntry t j (half.decode (k : ℕ)), fun n j => t j (Spec.halfValue n), rfl,
    ⟨hin, ?_, ?_, ?_, ?_, ?_⟩, hout, hby, ⟨⟨[], rfl⟩, (?_ : R.flatten = _), hc, ?_⟩, ?_⟩
  · simp [Base.addElement, hout]
  · simp [Base.styleOf, Base.addElement, hi']
  · simp [Base.flag, Base.addElement, hh]
  · simp [Base.indexMaps, Base.addElement, he]
  · simp only [Base.array, arraysOf, Base.addElement, he, List.nil_append,
      List.filterMap_cons, List.filterMap_nil, List.getLast?_singleton]
  · rw [← hR]; unfold Spec.rowMajor; rfl
  · intro n hn j
    rw [half_decode n hn]
    rfl
  · intro n _ j
    exact ht j _

/-- C57, what the code does: whatever the input range, for every half value the
inverse returns the position in [0, 1] of the input that produced it.  (Minus zero is
left out as in C18; the model reads it as zero.) -/
theorem C57_actual_partial (A : Arith K) (hA : A.Exact) (compat : ℕ) {m c : ℕ} (hc : c = 0 ∨ c = 2)
    (V : Fin (m + 2) → Fin (c + 1) → K) (hV : ∀ j, StrictMono fun k => V k j)
    {lo hi : K} (h : lo < hi) (raw : Bool) :
    ∃ inv, inverseHalfDomain (m + 2) (c + 1) (Spec.rowMajor fun i j => .fin (V i j))
        (.fin lo) (.fin hi) raw = .ok inv ∧
      ∀ pairs : List ((Fin 3 → K) × (Fin 3 → K)),
        (∀ p ∈ pairs, ∀ i : Fin 3,
          Spec.OnCurve lo hi (fun k => V k (Spec.column c i)) (p.1 i) (p.2 i) ∧
          ∃ n, Spec.halfFinite n ∧ n ≠ 32768 ∧ p.2 i = Spec.halfValue n) →
        processList A compat inv (pixelValues (pairs.map Prod.snd)) 3
          = .ok (pixelValues (pairs.map fun p i => (p.1 i - lo) / (hi - lo))) := by
  obtain ⟨b, a, T, W, e, hl, hout, hby, ht, hW⟩ := inverseHalfDomain_eq hc V hV (.fin lo) (.fin hi) raw
  have d3 : (Node.leaf .lut1d b).attr "bypass" = none := hby
  refine ⟨_, e, fun pairs hp => ?_⟩
  rw [processList_one A hA compat 3 _ d3]
  have hlook : ∀ p ∈ pairs, ∀ i : Fin 3, a.lookup1DHalfDomain (.fin (p.2 i)) i
      = .ok (.fin ((p.1 i - lo) / (hi - lo))) := by
    intro p hp' i
    obtain ⟨hcv, n, hn, h0, hy⟩ := hp p hp' i
    have hcv' := (onCurve_unit h _ _ _).mp hcv
    rw [hy, C18_exact a T W ht n hn h0 i]
    have hw := hW n hn (Spec.column c i)
    obtain ⟨t, e2, hon, _⟩ := inverseAt_spec V hV (Spec.column c i) (Spec.halfValue n)
    rw [e2] at hw
    have hw : t = W n (Spec.column c i) := Flt.fin.inj (Except.ok.inj hw)
    rw [← hw]
    rw [← hy] at hon
    -- the value lies between the first and the last sample
    have hmono := hV (Spec.column c i)
    have hb : V 0 (Spec.column c i) ≤ p.2 i ∧ p.2 i ≤ V (Fin.last (m + 1)) (Spec.column c i) := by
      obtain ⟨k, g1, g2, g3⟩ := hcv
      have hlt := hmono (Fin.castSucc_lt_succ (i := k))
      have hg : Spec.grid (m + 1) lo hi k < Spec.grid (m + 1) lo hi (k + 1) :=
        grid_lt h (Nat.lt_succ_self _)
      obtain ⟨q1, q2⟩ := affine_between hg hlt.le g1 g2
      rw [g3]
      exact ⟨(hmono.monotone (Fin.zero_le _)).trans q1, q2.trans (hmono.monotone (Fin.le_last _))⟩
    have hon := hon hb.1 hb.2
    -- and its position is unique
    have u1 := index_onCurve _ hmono hon (m + 2)
    have u2 := index_onCurve _ hmono hcv' (m + 2)
    rw [u1] at u2
    have hm : ((m + 1 : ℕ) : K) ≠ 0 := Nat.cast_ne_zero.mpr (by omega)
    rw [mul_right_cancel₀ hm (Flt.fin.inj (Except.ok.inj u2))]
  have hch : ∃ G : Fin 3 → K → K, ∀ p ∈ pairs, ∀ i : Fin 3,
      G i (p.2 i) = (p.1 i - lo) / (hi - lo) := by
    refine ⟨fun i t => match a.lookup1DHalfDomain (.fin t) i with | .ok (.fin y) => y | _ => 0,
      fun p hp' i => ?_⟩
    simp only [hlook p hp' i]
  obtain ⟨G, hG⟩ := hch
  rw [lut1d_pixels A compat b float16 float16 a hl.inDepth hout hl.array G]
  · rw [List.map_map]
    refine congrArg (fun z => Except.ok (pixelValues z)) (List.map_congr_left fun p hp' => ?_)
    funext i
    exact hG p hp' i
  · intro q hq i
    obtain ⟨p, hp', rfl⟩ := List.mem_map.mp hq
    have hn : (bitDepthToNormalized (.fin (p.2 i)) (some float16) : Flt K) = .fin (p.2 i) := by
      rw [toNormalized_fin, bitDepthSize_eq_fullScale,
        show (Spec.fullScale (some float16) : K) = 1 from rfl, div_one]
    simp only [hl.noMaps, lutNormalize, List.length_nil, Nat.not_lt_zero, if_false, py_pure,
      py_ok_bind, hA _, hn, if_neg hl.linear, hl.halfDomain, if_true, hlook p hp' i, hG p hp' i]

/-- C57 for LUTs on [0, 1]: the half-domain inverse returns the input that produced the
half value. -/
theorem C57_unit_partial (A : Arith K) (hA : A.Exact) (compat : ℕ) {m c : ℕ} (hc : c = 0 ∨ c = 2)
    (V : Fin (m + 2) → Fin (c + 1) → K) (hV : ∀ j, StrictMono fun k => V k j) (raw : Bool) :
    ∃ inv, inverseHalfDomain (m + 2) (c + 1) (Spec.rowMajor fun i j => .fin (V i j))
        (.fin 0) (.fin 1) raw = .ok inv ∧
      ∀ pairs : List ((Fin 3 → K) × (Fin 3 → K)),
        (∀ p ∈ pairs, ∀ i : Fin 3,
          Spec.OnCurve 0 1 (fun k => V k (Spec.column c i)) (p.1 i) (p.2 i) ∧
          ∃ n, Spec.halfFinite n ∧ n ≠ 32768 ∧ p.2 i = Spec.halfValue n) →
        processList A compat inv (pixelValues (pairs.map Prod.snd)) 3
          = .ok (pixelValues (pairs.map Prod.fst)) := by
  obtain ⟨inv, e, h⟩ := C57_actual_partial A hA compat hc V hV zero_lt_one raw
  refine ⟨inv, e, fun pairs hp => ?_⟩
  rw [h pairs hp]
  simp only [sub_zero, div_one]

theorem halfValue_zero : (Spec.halfValue 0 : K) = 0 := by
  unfold Spec.halfValue; norm_num

theorem halfValue_one : (Spec.halfValue 15360 : K) = 1 := by
  unfold Spec.halfValue; norm_num

/-- C57 is false for every input range other than [0, 1]: already the inverse of the
two-row identity table does not return the input of a half value. -/
theorem C57_false (A : Arith K) (hA : A.Exact) (compat : ℕ) {lo hi : K} (h : lo < hi)
    (hne : lo ≠ 0 ∨ hi ≠ 1) (raw : Bool) :
    ∃ inv, inverseHalfDomain 2 1 [.fin 0, .fin 1] (.fin lo) (.fin hi) raw = .ok inv ∧
      ∃ x y : K, Spec.OnCurve (m := 1) lo hi ![0, 1] x y ∧
        (∃ n, Spec.halfFinite n ∧ y = Spec.halfValue n) ∧
        processList A compat inv (pixelValues [fun _ => y]) 3 ≠ .ok (pixelValues [fun _ => x]) := by
  have hp : hi - lo ≠ 0 := (sub_pos.mpr h).ne'
  have hg0 : Spec.grid 1 lo hi 0 = lo := by simp [Spec.grid]
  have hg1 : Spec.grid 1 lo hi (0 + 1) = hi := by simp [Spec.grid]
  obtain ⟨inv, e, hi'⟩ := C57_actual_partial A hA compat (m := 0) (c := 0) (.inl rfl)
    (fun k _ => (![0, 1] : Fin 2 → K) k) (by
      intro j a b hab
      fin_cases a <;> fin_cases b <;> first | exact absurd hab (by decide) | simp) h raw
  refine ⟨inv, e, ?_⟩
  have on : ∀ x y : K, lo ≤ x → x ≤ hi → y = (x - lo) / (hi - lo) →
      Spec.OnCurve (m := 1) lo hi ![0, 1] x y := by
    intro x y h1 h2 h3
    refine ⟨0, by simpa [hg0] using h1, by simpa [hg1] using h2, ?_⟩
    rw [h3]
    simp only [Fin.val_zero, hg0, hg1]
    unfold Spec.affine
    simp
    ring
  have run : ∀ x y : K, Spec.OnCurve (m := 1) lo hi ![0, 1] x y →
      (∃ n, Spec.halfFinite n ∧ n ≠ 32768 ∧ y = Spec.halfValue n) → (x - lo) / (hi - lo) ≠ x →
      processList A compat inv (pixelValues [fun _ => y]) 3 ≠ .ok (pixelValues [fun _ => x]) := by
    intro x y h1 h2 h3 h4
    have := hi' [(fun _ => x, fun _ => y)] (by
      intro p hp i
      rw [List.mem_singleton] at hp
      subst hp
      exact ⟨h1, h2⟩)
    simp only [List.map_cons, List.map_nil] at this
    rw [this] at h4
    have h5 := Except.ok.inj h4
    simp [pixelValues, Spec.fins, List.ofFn_succ] at h5
    exact h3 h5
  rcases hne with h0 | h1
  · have hc := on lo 0 le_rfl h.le (by simp)
    have hn : Spec.halfFinite 0 := ⟨by decide, by decide⟩
    refine ⟨lo, 0, hc, ⟨0, hn, halfValue_zero.symm⟩,
      run lo 0 hc ⟨0, hn, by decide, halfValue_zero.symm⟩ ?_⟩
    rw [sub_self, zero_div]; exact h0.symm
  · have hc := on hi 1 h.le le_rfl (by rw [div_self hp])
    have hn : Spec.halfFinite 15360 := ⟨by decide, by decide⟩
    refine ⟨hi, 1, hc, ⟨15360, hn, halfValue_one.symm⟩,
      run hi 1 hc ⟨15360, hn, by decide, halfValue_one.symm⟩ ?_⟩
    rw [div_self hp]; exact h1.symm

/-- A three-column table on [0, 1] whose middle value is a half value. -/
example : ∃ inv, inverseHalfDomain 3 3 (Spec.rowMajor fun (i : Fin 3) (_ : Fin 3) =>
      Flt.fin ((i : ℕ) * (i : ℕ) : ℚ)) (.fin 0) (.fin 1) true = .ok inv ∧
    processList ratArith 2 inv (pixelValues [fun _ => 1]) 3 = .ok (pixelValues [fun _ => 1 / 2]) := by
  obtain ⟨inv, e, h⟩ := C57_unit_partial ratArith (fun _ => rfl) 2 (m := 1) (c := 2) (.inr rfl)
    (fun i _ => ((i : ℕ) * (i : ℕ) : ℚ)) (by
      intro j a b hab
      show ((a : ℕ) * (a : ℕ) : ℚ) < (b : ℕ) * (b : ℕ)
      exact_mod_cast Nat.mul_self_lt_mul_self hab) true
  refine ⟨inv, e, h [(fun _ => 1 / 2, fun _ => 1)] ?_⟩
  intro p hp i
  rw [List.mem_singleton] at hp
  subst hp
  refine ⟨⟨0, ?_, ?_, ?_⟩, 15360, ⟨by decide, by decide⟩, by decide, halfValue_one.symm⟩
  · simp [Spec.grid]
  · simp [Spec.grid]
  · simp [Spec.grid, Spec.affine]

/-! ### C80: the resampled inverse -/

theorem foldlM_pmin {n : ℕ} (f : ℕ → Py (Flt K)) (g : ℕ → K) (hf : ∀ i < n, f i = .ok (.fin (g i)))
    (x0 : K) : ∃ r, (List.range n).foldlM (init := Flt.fin x0) (fun acc c => do
        let s ← f c
        pure (Flt.pmin acc s)) = .ok (.fin r) ∧ r ≤ x0 ∧ (∀ i < n, r ≤ g i) ∧
      (r = x0 ∨ ∃ i < n, r = g i) := by
  induction n with
  | zero => exact ⟨x0, rfl, le_rfl, by omega, .inl rfl⟩
  | succ n ih =>
    obtain ⟨r, e, h1, h2, h3⟩ := ih (fun i hi => hf i (by omega))
    refine ⟨min r (g n), ?_, (min_le_left _ _).trans h1, ?_, ?_⟩
    · rw [List.range_succ, List.foldlM_append, e]
      simp only [List.foldlM_cons, List.foldlM_nil, py_ok_bind, hf n (by omega), py_pure,
        Flt.pmin_fin]
    · intro i hi
      rcases Nat.lt_succ_iff_lt_or_eq.mp hi with h | rfl
      · exact (min_le_left _ _).trans (h2 i h)
      · exact min_le_right _ _
    · rcases min_choice r (g n) with h | h
      · rw [h]
        rcases h3 with h3 | ⟨i, hi, h3⟩
        · exact .inl h3
        · exact .inr ⟨i, by omega, h3⟩
      · rw [h]; exact .inr ⟨n, by omega, rfl⟩

theorem foldlM_pmax {n : ℕ} (f : ℕ → Py (Flt K)) (g : ℕ → K) (hf : ∀ i < n, f i = .ok (.fin (g i)))
    (x0 : K) : ∃ r, (List.range n).foldlM (init := Flt.fin x0) (fun acc c => do
        let s ← f c
        pure (Flt.pmax acc s)) = .ok (.fin r) ∧ x0 ≤ r ∧ (∀ i < n, g i ≤ r) ∧
      (r = x0 ∨ ∃ i < n, r = g i) := by
  induction n with
  | zero => exact ⟨x0, rfl, le_rfl, by omega, .inl rfl⟩
  | succ n ih =>
    obtain ⟨r, e, h1, h2, h3⟩ := ih (fun i hi => hf i (by omega))
    refine ⟨max r (g n), ?_, h1.trans (le_max_left _ _), ?_, ?_⟩
    · rw [List.range_succ, List.foldlM_append, e]
      simp only [List.foldlM_cons, List.foldlM_nil, py_ok_bind, hf n (by omega), py_pure,
        Flt.pmax_fin]
    · intro i hi
      rcases Nat.lt_succ_iff_lt_or_eq.mp hi with h | rfl
      · exact (h2 i h).trans (le_max_left _ _)
      · exact le_max_right _ _
    · rcases max_choice r (g n) with h | h
      · rw [h]
        rcases h3 with h3 | ⟨i, hi, h3⟩
        · exact .inl h3
        · exact .inr ⟨i, by omega, h3⟩
      · rw [h]; exact .inr ⟨n, by omega, rfl⟩

theorem first_row {n c : ℕ} (V : Fin (n + 1) → Fin (c + 1) → K) (j : Fin (c + 1)) :
    pyGet (Spec.rowMajor fun i j => Flt.fin (V i j)) j = .ok (.fin (V 0 j)) := by
  have := rowMajor_get (fun i j => Flt.fin (V i j)) 0 j (by omega) j.2
  rwa [show (j : ℕ) + 0 * (c + 1) = j by omega] at this

theorem rowMajor_length {α : Type} {n c : ℕ} (V : Fin n → Fin c → α) :
    (Spec.rowMajor V).length = n * c := by
  unfold Spec.rowMajor
  rw [List.length_flatten, List.map_ofFn]
  simp [Function.comp_def]

theorem last_row {n c : ℕ} (V : Fin (n + 1) → Fin (c + 1) → K) (j : Fin (c + 1)) :
    pyIdx (Spec.rowMajor fun i j => Flt.fin (V i j)) (-((c + 1 : ℕ) : ℤ) + (j : ℕ))
      = .ok (.fin (V (Fin.last n) j)) := by
  have h := rowMajor_get (fun i j => Flt.fin (V i j)) n j (by omega) j.2
  have hj := j.2
  have e : -((c + 1 : ℕ) : ℤ) + (j : ℕ) + ((n + 1) * (c + 1) : ℕ) = ((j + n * (c + 1) : ℕ) : ℤ) := by
    push_cast; ring
  unfold pyIdx
  have hneg : -((c + 1 : ℕ) : ℤ) + (j : ℕ) < 0 := by push_cast; omega
  simp only [rowMajor_length, hneg, if_true, e, Int.toNat_natCast]
  rw [if_neg (by omega)]
  unfold pyGet at h
  exact h

/-- C80: with strictly increasing samples the resampled inverse is exact at its own
sample points: there it returns the input of the sampled curve (where the curve of the
channel reaches the value). -/
theorem C80_exact (A : Arith K) (hA : A.Exact) (compat : ℕ) {m c : ℕ} (hc : c = 0 ∨ c = 2)
    (V : Fin (m + 2) → Fin (c + 1) → K) (hV : ∀ j, StrictMono fun k => V k j)
    {lo hi : K} (h : lo < hi) :
    ∃ inv mn mx, inverseResampled (m + 2) (c + 1) (Spec.rowMajor fun i j => .fin (V i j))
        (.fin lo) (.fin hi) = .ok inv ∧
      IsLeast (Set.range (V 0)) mn ∧ IsGreatest (Set.range (V (Fin.last (m + 1)))) mx ∧
      ∀ pairs : List ((Fin 3 → K) × (Fin 3 → K)),
        (∀ p ∈ pairs, ∀ i : Fin 3,
          Spec.OnCurve lo hi (fun k => V k (Spec.column c i)) (p.1 i) (p.2 i) ∧
          ∃ k ≤ 2 * m + 3, p.2 i = Spec.grid (2 * m + 3) mn mx k) →
        processList A compat inv (pixelValues (pairs.map Prod.snd)) 3
          = .ok (pixelValues (pairs.map Prod.fst)) := by
  choose t ht hon _ using fun j y => inverseAt_spec V hV j y
  -- the output range
  obtain ⟨mn, emn, _, hmn, hmn'⟩ := foldlM_pmin (n := c + 1)
    (fun i => pyGet (Spec.rowMajor fun i j => Flt.fin (V i j)) i)
    (fun i => if hi : i < c + 1 then V 0 ⟨i, hi⟩ else 0) (by
      intro i hi
      simp only [hi, dite_true]
      exact first_row V ⟨i, hi⟩) (V 0 0)
  obtain ⟨mx, emx, _, hmx, hmx'⟩ := foldlM_pmax (n := c + 1)
    (fun i => pyIdx (Spec.rowMajor fun i j => Flt.fin (V i j)) (-((c + 1 : ℕ) : ℤ) + i))
    (fun i => if hi : i < c + 1 then V (Fin.last (m + 1)) ⟨i, hi⟩ else 0) (by
      intro i hi
      simp only [hi, dite_true]
      exact last_row V ⟨i, hi⟩) (V (Fin.last (m + 1)) 0)
  have hleast : IsLeast (Set.range (V 0)) mn := by
    constructor
    · rcases hmn' with e | ⟨i, hi, e⟩
      · exact ⟨0, e.symm⟩
      · simp only [hi, dite_true] at e; exact ⟨_, e.symm⟩
    · rintro _ ⟨j, rfl⟩
      have := hmn j j.2
      simpa only [j.2, dite_true] using this
  have hgreat : IsGreatest (Set.range (V (Fin.last (m + 1)))) mx := by
    constructor
    · rcases hmx' with e | ⟨i, hi, e⟩
      · exact ⟨0, e.symm⟩
      · simp only [hi, dite_true] at e; exact ⟨_, e.symm⟩
    · rintro _ ⟨j, rfl⟩
      have := hmx j j.2
      simpa only [j.2, dite_true] using this
  have hlt : mn < mx := by
    have h1 := hleast.2 ⟨0, rfl⟩
    have h2 := hgreat.2 ⟨0, rfl⟩
    have h3 : V 0 0 < V (Fin.last (m + 1)) 0 := hV 0 (by simp [Fin.lt_def])
    linarith
  have hM : (0 : K) < ((2 * m + 3 : ℕ) : K) := Nat.cast_pos.mpr (by omega)
  have hrows : (List.range ((m + 2) * 2)).mapM (fun (i : ℕ) => do
      let input ← pyDivF (.fin (i : K)) (.fin ((((m + 2) * 2 : ℕ) : K) - 1))
      let ranged := input * (Flt.fin mx - Flt.fin mn) + Flt.fin mn
      (List.range (c + 1)).mapM fun ch =>
        inverseAt (m + 2) (c + 1) (Spec.rowMajor fun i j => Flt.fin (V i j)) ch ranged)
      = .ok (List.ofFn fun k : Fin (2 * m + 3 + 1) => List.ofFn fun j : Fin (c + 1) =>
          Flt.fin (t j (Spec.grid (2 * m + 3) mn mx k))) := by
    rw [show (m + 2) * 2 = 2 * m + 3 + 1 by ring]
    apply range_mapM_ofFn
    intro i
    have e : ((2 * m + 3 + 1 : ℕ) : K) - 1 = ((2 * m + 3 : ℕ) : K) := by push_cast; ring
    rw [e, pyDivF_fin hM.ne', py_ok_bind]
    apply range_mapM_ofFn
    intro j
    simp only [Flt.fin_sub, Flt.fin_mul, Flt.fin_add]
    rw [← ht j]
    congr 2
    unfold Spec.grid
    ring
  have hlen : (List.ofFn fun k : Fin (2 * m + 3 + 1) => List.ofFn fun j : Fin (c + 1) =>
          Flt.fin (t j (Spec.grid (2 * m + 3) mn mx k))).flatten.length
      = (2 * m + 3 + 1) * (c + 1) :=
    rowMajor_length (fun k j => Flt.fin (t j (Spec.grid (2 * m + 3) mn mx (k : Fin (2 * m + 3 + 1)))))
  have hdiv : pyDivNat ((2 * m + 3 + 1) * (c + 1)) (c + 1) = .ok (2 * m + 3 + 1) := by
    simp [pyDivNat]
  have m0 := first_row V 0
  have x0 := last_row V 0
  simp only [Fin.val_zero, Nat.cast_zero, add_zero] at m0 x0
  have run : inverseResampled (m + 2) (c + 1) (Spec.rowMajor fun i j => .fin (V i j))
      (.fin lo) (.fin hi) = (do
        let lut ← lut1dSetArray (newLut1d float16 float16 (.str "inverse_1d_lut")
          (.str "inverse_1d_lut")) (c + 1) (List.ofFn fun k : Fin (2 * m + 3 + 1) =>
            List.ofFn fun j : Fin (c + 1) => Flt.fin (t j (Spec.grid (2 * m + 3) mn mx k))).flatten
        pure [boundedRange "inverse_1d_range_1" (.fin mn) (.fin mx) (.fin 0) (.fin 1), .leaf .lut1d lut,
          boundedRange "inverse_1d_range_2" (.fin 0) (.fin 1) (.fin lo) (.fin hi)]) := by
    unfold inverseResampled
    simp only [m0, py_ok_bind]
    rw [emn]
    simp only [x0, py_ok_bind]
    rw [emx]
    simp only [py_ok_bind]
    rw [hrows]
    rfl
  rw [run]
  simp only [lut1dSetArray, hlen, hdiv, py_ok_bind, py_pure]
  refine ⟨_, mn, mx, rfl, hleast, hgreat, fun pairs hp => ?_⟩
  generalize hb : Base.addElement (newLut1d float16 float16 (.str "inverse_1d_lut")
    (.str "inverse_1d_lut")) _ = b
  have htab : ∃ a, b.array = .ok a ∧ Table1D (m := 2 * m + 3) (c := c) a
        (fun k j => t j (Spec.grid (2 * m + 3) mn mx k)) ∧
      b.attrs.get? "inBitDepth" = some float16 ∧ b.attrs.get? "outBitDepth" = some float16 ∧
      b.attrs.get? "bypass" = none ∧ b.styleOf "interpolation" ≠ .str "cubic" ∧
      b.flag "halfDomain" = false ∧ b.indexMaps = [] := by
    subst hb
    refine ⟨_, rfl, ⟨⟨[], rfl⟩, rfl, hc⟩, rfl, rfl, rfl, ?_, rfl, rfl⟩
    show AVal.str "linear" ≠ .str "cubic"
    decide
  obtain ⟨a, ha, ht', d1, d2, d3, d4, d5, d6⟩ := htab
  have d3 : (Node.leaf .lut1d b).attr "bypass" = none := d3
  have hfst : ∀ p ∈ pairs, ∀ i, lo ≤ p.1 i ∧ p.1 i ≤ hi :=
    fun p hp' i => onCurve_mem h (hp p hp' i).1
  -- the position of a sample point on the output range
  have hpos : ∀ p ∈ pairs, ∀ i : Fin 3, ∃ k : Fin (2 * m + 3 + 1),
      (p.2 i - mn) / (mx - mn) = (k : ℕ) / ((2 * m + 3 : ℕ) : K) ∧
      t (Spec.column c i) (Spec.grid (2 * m + 3) mn mx k) = (p.1 i - lo) / (hi - lo) := by
    intro p hp' i
    obtain ⟨hcv, k, hk, hy⟩ := hp p hp' i
    refine ⟨⟨k, by omega⟩, ?_, ?_⟩
    · rw [hy]
      have := (sub_pos.mpr hlt).ne'
      have := hM.ne'
      simp only [Spec.grid]
      field_simp
      ring
    · have hcv' := (onCurve_unit h _ _ _).mp hcv
      have hmono := hV (Spec.column c i)
      have hb : V 0 (Spec.column c i) ≤ p.2 i ∧ p.2 i ≤ V (Fin.last (m + 1)) (Spec.column c i) := by
        obtain ⟨k, g1, g2, g3⟩ := hcv
        have hlt := hmono (Fin.castSucc_lt_succ (i := k))
        have hg : Spec.grid (m + 1) lo hi k < Spec.grid (m + 1) lo hi (k + 1) :=
          grid_lt h (Nat.lt_succ_self _)
        obtain ⟨q1, q2⟩ := affine_between hg hlt.le g1 g2
        rw [g3]
        exact ⟨(hmono.monotone (Fin.zero_le _)).trans q1, q2.trans (hmono.monotone (Fin.le_last _))⟩
      have hon := hon (Spec.column c i) (p.2 i) hb.1 hb.2
      have u1 := index_onCurve _ hmono hon (m + 2)
      have u2 := index_onCurve _ hmono hcv' (m + 2)
      rw [u1] at u2
      have hm : ((m + 1 : ℕ) : K) ≠ 0 := Nat.cast_ne_zero.mpr (by omega)
      rw [← mul_right_cancel₀ hm (Flt.fin.inj (Except.ok.inj u2)), ← hy]
  have hlut : (Node.leaf .lut1d b).outOf A compat 3 (pixelValues (pairs.map fun p i =>
      (p.2 i - mn) / (mx - mn)))
      = .ok (pixelValues (pairs.map fun p i => (p.1 i - lo) / (hi - lo))) := by
    have hlook : ∀ p ∈ pairs, ∀ i : Fin 3, a.lookup1DLinear (.fin ((p.2 i - mn) / (mx - mn))) i
        = .ok (.fin ((p.1 i - lo) / (hi - lo))) := by
      intro p hp' i
      obtain ⟨k, e1, e2⟩ := hpos p hp' i
      rw [e1, C14_sample (by omega) a _ ht' k i, e2]
    have hch : ∃ G : Fin 3 → K → K, ∀ p ∈ pairs, ∀ i : Fin 3,
        G i ((p.2 i - mn) / (mx - mn)) = (p.1 i - lo) / (hi - lo) := by
      refine ⟨fun i t => match a.lookup1DLinear (.fin t) i with | .ok (.fin y) => y | _ => 0,
        fun p hp' i => ?_⟩
      simp only [hlook p hp' i]
    obtain ⟨G, hG⟩ := hch
    rw [lut1d_pixels A compat b float16 float16 a d1 d2 ha G]
    · rw [List.map_map]
      refine congrArg (fun z => Except.ok (pixelValues z)) (List.map_congr_left fun p hp' => ?_)
      funext i
      exact hG p hp' i
    · intro q hq i
      obtain ⟨p, hp', rfl⟩ := List.mem_map.mp hq
      have hn : (bitDepthToNormalized (.fin ((p.2 i - mn) / (mx - mn))) (some float16) : Flt K)
          = .fin ((p.2 i - mn) / (mx - mn)) := by
        rw [toNormalized_fin, bitDepthSize_eq_fullScale,
          show (Spec.fullScale (some float16) : K) = 1 from rfl, div_one]
      simp only [d6, lutNormalize, List.length_nil, Nat.not_lt_zero, if_false, py_pure, py_ok_bind,
        hA _, hn, if_neg d4, d5, Bool.false_eq_true, hlook p hp' i, hG p hp' i]
  have h1 : (boundedRange "inverse_1d_range_1" (.fin mn) (.fin mx) (.fin 0) (.fin 1) : Node K).attr
      "bypass" = none := rfl
  have h2 : (boundedRange "inverse_1d_range_2" (.fin 0) (.fin 1) (.fin lo) (.fin hi) : Node K).attr
      "bypass" = none := rfl
  rw [processList_eq, map_exact hA, runOut_plain _ _ _ _ _ (by simp [h1, h2, d3])]
  simp only [List.foldlM_cons, List.foldlM_nil, py_pure]
  rw [boundedRange_pixels A hA compat 3 _ hlt.ne, py_ok_bind]
  have e1 : ((pairs.map Prod.snd).map fun p i => min 1 (max 0 (Spec.affine mn mx 0 1 (p i))))
      = pairs.map fun p i => (p.2 i - mn) / (mx - mn) := by
    rw [List.map_map]
    refine List.map_congr_left fun p hp' => ?_
    funext i
    obtain ⟨k, q1, _⟩ := hpos p hp' i
    have hk : ((k : ℕ) : K) ≤ ((2 * m + 3 : ℕ) : K) := Nat.cast_le.mpr (by omega)
    have m1 : 0 ≤ (p.2 i - mn) / (mx - mn) := by
      rw [q1]; exact div_nonneg (Nat.cast_nonneg _) hM.le
    have m2 : (p.2 i - mn) / (mx - mn) ≤ 1 := by
      rw [q1]; exact (div_le_one hM).mpr hk
    simp only [Function.comp, affine_unit]
    rw [max_eq_right m1, min_eq_right m2]
  rw [e1, hlut, py_ok_bind, boundedRange_pixels A hA compat 3 _ zero_ne_one, py_ok_bind, List.map_map]
  refine congrArg (fun z => Except.ok (pixelValues z)) (List.map_congr_left fun p hp' => ?_)
  funext i
  simp only [Function.comp, affine_back h]
  rw [max_eq_right (hfst p hp' i).1, min_eq_right (hfst p hp' i).2]

/-- The samples 0, 1, 4 over [0, 1]: resampled at 0, 4/5, …, 4; both ends and the
sample point 8/5 (reached at 3/5) come back exactly. -/
example : ∃ inv, inverseResampled 3 1 (Spec.rowMajor fun (i : Fin 3) (_ : Fin 1) =>
      Flt.fin ((i : ℕ) * (i : ℕ) : ℚ)) (.fin 0) (.fin 1) = .ok inv ∧
    processList ratArith 2 inv (pixelValues [![0, 8 / 5, 4]]) 3
      = .ok (pixelValues [![0, 3 / 5, 1]]) := by
  obtain ⟨inv, mn, mx, e, hmn, hmx, h⟩ := C80_exact ratArith (fun _ => rfl) 2 (m := 1) (c := 0)
    (.inl rfl) (fun i _ => ((i : ℕ) * (i : ℕ) : ℚ)) (by
      intro j a b hab
      show ((a : ℕ) * (a : ℕ) : ℚ) < (b : ℕ) * (b : ℕ)
      exact_mod_cast Nat.mul_self_lt_mul_self hab) (lo := 0) (hi := 1) (by norm_num)
  obtain ⟨_, rfl⟩ := hmn.1
  obtain ⟨_, rfl⟩ := hmx.1
  refine ⟨inv, e, h [(![0, 3 / 5, 1], ![0, 8 / 5, 4])] ?_⟩
  intro p hp i
  rw [List.mem_singleton] at hp
  subst hp
  fin_cases i
  · exact ⟨⟨0, by norm_num [Spec.grid], by norm_num [Spec.grid], by norm_num [Spec.grid, Spec.affine]⟩,
      0, by norm_num, by norm_num [Spec.grid]⟩
  · exact ⟨⟨1, by norm_num [Spec.grid], by norm_num [Spec.grid], by norm_num [Spec.grid, Spec.affine]⟩,
      2, by norm_num, by norm_num [Spec.grid]⟩
  · exact ⟨⟨1, by norm_num [Spec.grid], by norm_num [Spec.grid], by norm_num [Spec.grid, Spec.affine]⟩,
      5, by norm_num, by norm_num [Spec.grid]⟩

/-- Between its sample points the resampled inverse is not exact, even on the samples of
the table it inverts: 0, 1, 4 over [0, 1] reach 1 at 1/2, the inverse says 9/20. -/
theorem C80_between_inexact : ∃ V : Fin 3 → Fin 1 → ℚ,
    (∀ j, StrictMono fun k => V k j) ∧ Spec.OnCurve 0 1 (fun k => V k 0) (1 / 2) 1 ∧
    (inverseResampled 3 1 (Spec.rowMajor fun i j => Flt.fin (V i j)) (.fin 0) (.fin 1)
        >>= fun inv => processList ratArith 2 inv (pixelValues [fun _ => 1]) 3)
      = .ok (pixelValues [fun _ => 9 / 20]) := by
  refine ⟨fun i _ => ((i : ℕ) * (i : ℕ) : ℚ), ?_, ?_, ?_⟩
  · intro j a b hab
    show ((a : ℕ) * (a : ℕ) : ℚ) < (b : ℕ) * (b : ℕ)
    exact_mod_cast Nat.mul_self_lt_mul_self hab
  · exact ⟨0, by norm_num [Spec.grid], by norm_num [Spec.grid], by norm_num [Spec.grid, Spec.affine]⟩
  · decide +kernel

end CLF
