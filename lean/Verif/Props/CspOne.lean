import Verif.Props.CspPrelut

/-!
# One-dimensional CSP files (C84)
-/

set_option linter.unusedSectionVars false

namespace CLF

variable {K : Type} [Field K] [LinearOrder K] [IsStrictOrderedRing K] [FloorRing K]

/-- The line of an entry of a one-dimensional table. -/
def cspRow1 (v : List (Flt K)) : Txt := (v.map fun x => ' ' :: show6 (.ofFlt x)).flatten

theorem cspRow1_read (v : List (Flt K)) :
    (words (cspRow1 v)).mapM (readFlt (K := K)) = .ok (v.map back6) := by
  have e : cspRow1 v = ((v.map fun x => show6 (.ofFlt x)).map fun w => ' ' :: w).flatten := by
    unfold cspRow1
    rw [List.map_map]
    rfl
  rw [e, words_spaced, numText_show6.mapM]
  intro w hw
  obtain ⟨x, _, rfl⟩ := List.mem_map.mp hw
  exact numText_show6.word x

theorem cspRow1_one (v : List (Flt K)) : OneLine (cspRow1 v) := by
  unfold cspRow1
  induction v with
  | nil => exact oneLine_lit [] (by decide)
  | cons x v ih =>
    simp only [List.map_cons, List.flatten_cons, List.cons_append]
    exact OneLine.cons (by decide) ((show6_noSpace _).oneLine.append ih)

/-- Which channel of the data is written as component `j`. -/
def cspChannel (k : ℕ) (j : Fin 3) : ℕ := if k = 1 then 0 else j

theorem writeCsp1d_eq (lo hi : Flt K) {n c k : ℕ} (V : Fin n → Fin c → Flt K)
    (hk : k = 1 ∨ k = 3) (hkc : k ≤ c) (j : Fin 3 → Fin c) (hj : ∀ i, (j i : ℕ) = cspChannel k i) :
    writeCsp1d lo hi (Spec.rowMajor V) n c k
      = .ok (unlines (cspFile (if false then "3D" else "1D") (pre2 lo hi ++ pre2 lo hi ++ pre2 lo hi)
        (joinWith [' '] ([n].map showNat))
        ((List.ofFn fun i => cspRow1 (List.ofFn fun ch => V i (j ch))) ++ [[]]))) := by
  have hmin : min (min 3 k) c = k := by rcases hk with rfl | rfl <;> omega
  have hrows : (List.range n).mapM (fun i => do
      let vs ←
        if k = 1 then do
          let v ← pyGet (Spec.rowMajor V) (i * c)
          pure [v, v, v]
        else (List.range k).mapM fun j => pyGet (Spec.rowMajor V) (i * c + j)
      pure ((vs.map fun v => ' ' :: show6 (.ofFlt v)).flatten ++ ['\n']))
      = .ok (List.ofFn fun i => cspRow1 (List.ofFn fun ch => V i (j ch)) ++ ['\n']) := by
    apply range_mapM_ofFn
    intro i
    have hget : ∀ ch : Fin 3, pyGet (Spec.rowMajor V) (i * c + cspChannel k ch) = .ok (V i (j ch)) := by
      intro ch
      have := rowMajor_get V i (j ch) i.2 (j ch).2
      rw [← hj, Nat.add_comm]
      exact this
    rcases hk with rfl | rfl
    · have h0 := hget 0
      have h1 : ∀ ch, j ch = j 0 := fun ch => Fin.ext (by rw [hj, hj]; rfl)
      simp only [cspChannel, if_true, Nat.add_zero] at h0
      simp only [if_true, h0, py_ok_bind, py_pure]
      simp [h1 1, h1 2, cspRow1]
    · have hvs : (List.range 3).mapM (fun j => pyGet (Spec.rowMajor V) (i * c + j))
          = .ok (List.ofFn fun ch => V i (j ch)) := by
        apply range_mapM_ofFn
        intro ch
        exact hget ch
      simp only [OfNat.ofNat_ne_one, if_false, hvs, py_ok_bind, py_pure]
      rfl
  unfold writeCsp1d
  simp only [hmin]
  rw [hrows, py_ok_bind, py_pure, ← cspHead_eq false _ _ _ _ rfl]
  simp only [cspPrelut2_eq, unlines_append, List.append_assoc, Bool.false_eq_true, if_false]
  simp only [unlines, List.map_cons, List.map_append, List.map_nil, List.flatten_cons,
    List.flatten_append, List.flatten_nil, List.append_assoc, List.cons_append, List.nil_append,
    List.append_nil, joinWith, List.map_ofFn]
  rfl

theorem cspTable1_rows {n : ℕ} (T : Fin n → Fin 3 → Flt K) :
    cspTable false [n] ((List.ofFn fun i => cspRow1 (List.ofFn (T i))) ++ [[]])
      = .ok (Spec.rowMajor fun i ch => back6 (T i ch)) := by
  have hlines : (List.ofFn fun i => cspRow1 (List.ofFn (T i)))
      = (List.range' 0 n).map fun k => if h : k < n then cspRow1 (List.ofFn (T ⟨k, h⟩)) else [] := by
    apply List.ext_getElem (by simp)
    intro i h1 h2
    have : i < n := by simpa using h1
    simp [this]
  have hg : pyGet [n] 0 = .ok n := rfl
  unfold cspTable
  simp only [hg, py_ok_bind, Bool.false_eq_true, if_false]
  rw [replicate_flat n id fun k => if h : k < n then List.ofFn fun ch => back6 (T ⟨k, h⟩ ch) else [], hlines,
    cspLoop_places .ok id id n (fun k _ => rfl) (fun k hk => ⟨hk, rfl⟩) (fun k hk => ⟨rfl, hk⟩)
      (fun k => if h : k < n then cspRow1 (List.ofFn (T ⟨k, h⟩)) else [])
      (fun k => if h : k < n then List.ofFn fun ch => back6 (T ⟨k, h⟩ ch) else []) ?_ ?_ [[]] n 0 (by omega)]
  · have : cspLoop (.ok) n ((List.range n).flatMap fun q => (fun k => if h : k < n then
        List.ofFn fun ch => back6 (T ⟨k, h⟩ ch) else []) (id q)) [[]]
        = .ok ((List.range n).flatMap fun q => (fun k => if h : k < n then
        List.ofFn fun ch => back6 (T ⟨k, h⟩ ch) else []) (id q)) := rfl
    rw [this]
    congr 1
    unfold Spec.rowMajor
    rw [List.flatMap_def, map_range_ofFn]
    congr 2
    funext i
    simp
  · intro k hk
    simp [hk]
  · intro k hk
    simp only [hk, dif_pos]
    rw [cspRow1_read, List.map_ofFn]
    rfl

/-- The nodes read from a written one-dimensional table. -/
theorem readCsp1d_table (lo hi : Flt K) {n c k : ℕ} (V : Fin n → Fin c → Flt K)
    (hk : k = 1 ∨ k = 3) (hkc : k ≤ c) (j : Fin 3 → Fin c) (hj : ∀ i, (j i : ℕ) = cspChannel k i) :
    ∃ t, writeCsp1d lo hi (Spec.rowMajor V) n c k = .ok t ∧
      readCsp t = (do
        let b ← lut1dSetArray (newLut1d float16 float16 (.str "lut1d") (.str "lut1d")) 3
          (Spec.rowMajor fun i ch => back6 (V i (j ch)))
        pure [boundedRange "prelut_range" (back6 lo) (back6 hi) (.fin 0) (.fin 1), .leaf .lut1d b]) := by
  refine ⟨_, writeCsp1d_eq lo hi V hk hkc j hj, ?_⟩
  rw [readCsp_two false lo hi [n] (by simp)]
  · rw [cspTable1_rows fun i ch => V i (j ch), py_ok_bind]
    simp only [Bool.false_eq_true, if_false, bind_assoc]
    rfl
  · intro l hl
    rw [List.mem_append] at hl
    rcases hl with hl | hl
    · obtain ⟨i, rfl⟩ := (List.mem_ofFn' _ _).mp hl
      exact cspRow1_one _
    · rw [List.mem_singleton.mp hl]
      exact oneLine_lit [] (by decide)

theorem lut1dSetArray_rows {n : ℕ} (b : Base K) (T : Fin n → Fin 3 → Flt K) :
    lut1dSetArray b 3 (Spec.rowMajor T) = .ok (b.addElement (.array {
      dims := [n, 3], values := Spec.rowMajor T,
      integers := bitDepthIsInteger (b.attrs.get? "outBitDepth"),
      rawHalfs := b.flag "rawHalfs", floatEncoding := "string" })) := by
  have hdiv : pyDivNat (n * 3) 3 = .ok n := by simp [pyDivNat]
  unfold lut1dSetArray
  rw [rowMajor_length, hdiv]
  rfl

/-- C84, as far as it holds: a written one-dimensional table comes back with its range and
every sample rounded to six decimals; a table of one component comes back in all three
channels.  Missing: exact samples (`C84_false`) and tables of two components
(`C84_two_components`). -/
theorem C84_rounded_partial (lo hi : Flt K) {n c k : ℕ} (V : Fin n → Fin c → Flt K)
    (hk : k = 1 ∨ k = 3) (hkc : k ≤ c) :
    ∃ t lo' hi' b arr T, writeCsp1d lo hi (Spec.rowMajor V) n c k = .ok t ∧
      readCsp t = .ok [boundedRange "prelut_range" lo' hi' (.fin 0) (.fin 1), .leaf .lut1d b] ∧
      Spec.Near6 lo lo' ∧ Spec.Near6 hi hi' ∧ b.array = .ok arr ∧ arr.dims = [n, 3] ∧
      arr.values = Spec.rowMajor T ∧
      ∀ (i : Fin n) (ch : Fin 3) (j : Fin c), (j : ℕ) = (if k = 1 then 0 else (ch : ℕ)) →
        Spec.Near6 (V i j) (T i ch) := by
  have hc : ∀ ch : Fin 3, cspChannel k ch < c := by
    intro ch
    unfold cspChannel
    split <;> omega
  obtain ⟨t, h1, h2⟩ := readCsp1d_table lo hi V hk hkc (fun ch => ⟨cspChannel k ch, hc ch⟩) fun _ => rfl
  rw [lut1dSetArray_rows, py_ok_bind, py_pure] at h2
  refine ⟨t, _, _, _, _, _, h1, h2, back6_near lo, back6_near hi, rfl, rfl, rfl, ?_⟩
  intro i ch j hj
  obtain rfl : j = ⟨cspChannel k ch, hc ch⟩ := Fin.ext hj
  exact back6_near _

theorem csp1d_curve (A : Arith K) (hA : A.Exact) (compat : ℕ) {m c k : ℕ} (hk : k = 1 ∨ k = 3)
    (hkc : k ≤ c) (V : Fin (m + 2) → Fin c → K) (hV : ∀ i j, Spec.Six (V i j)) {lo hi : K}
    (hlo : Spec.Six lo) (hhi : Spec.Six hi) (hlt : lo < hi) (j : Fin 3 → Fin c)
    (hj : ∀ i, (j i : ℕ) = if k = 1 then 0 else (i : ℕ)) :
    ∃ t r b, writeCsp1d (.fin lo) (.fin hi) (Spec.rowMajor fun i j => .fin (V i j)) (m + 2) c k = .ok t ∧
      readCsp t = .ok [r, b] ∧
      ∀ pairs : List ((Fin 3 → K) × (Fin 3 → K)),
        (∀ p ∈ pairs, ∀ i : Fin 3, Spec.OnCurve lo hi (fun r => V r (j i)) (p.1 i) (p.2 i)) →
        processList A compat [r, b] (pixelValues (pairs.map Prod.fst)) 3
          = .ok (pixelValues (pairs.map Prod.snd)) := by
  obtain ⟨t, h1, h2⟩ := readCsp1d_table (.fin lo) (.fin hi) (fun i j => .fin (V i j)) hk hkc j hj
  rw [lut1dSetArray_rows, py_ok_bind, py_pure] at h2
  refine ⟨t, _, _, h1, h2, fun pairs hp => ?_⟩
  simp only [back6_six hlo, back6_six hhi, back6_six (hV _ _)]
  generalize hb : Base.addElement _ _ = b
  have d3 : (Node.leaf .lut1d b).attr "bypass" = none := by subst hb; rfl
  rw [processList_two A hA compat 3 _ _ rfl d3]
  refine rangeLut_curve A hA compat (c := 2) (fun i ch => V i (j ch)) hlt _ b
    { dims := [m + 2, 3], values := Spec.rowMajor fun i ch => Flt.fin (V i (j ch)), integers := false,
      floatEncoding := "string" } ?_ ⟨⟨[], rfl⟩, rfl, .inr rfl⟩ ?_ ?_ ?_ ?_ ?_ ?_ pairs ?_
  · subst hb; rfl
  · subst hb; rfl
  · subst hb; rfl
  · subst hb; rfl
  · subst hb
    show AVal.str "linear" ≠ .str "cubic"
    decide
  · subst hb; rfl
  · subst hb; rfl
  · intro p hp' i
    have : Spec.column 2 i = i := by
      fin_cases i <;> rfl
    simp only [this]
    exact hp p hp' i

/-- C84, as far as it holds: a table of samples with at most six decimals, over such a range,
is written to a file that is read into a list that evaluates the polyline through the
samples. -/
theorem C84_curve_partial (A : Arith K) (hA : A.Exact) (compat : ℕ) {m c k : ℕ} (hk : k = 1 ∨ k = 3)
    (hkc : k ≤ c) (V : Fin (m + 2) → Fin c → K) (hV : ∀ i j, Spec.Six (V i j)) {lo hi : K}
    (hlo : Spec.Six lo) (hhi : Spec.Six hi) (hlt : lo < hi) (j : Fin 3 → Fin c)
    (hj : ∀ i, (j i : ℕ) = if k = 1 then 0 else (i : ℕ)) :
    ∃ t ns, writeCsp1d (.fin lo) (.fin hi) (Spec.rowMajor fun i j => .fin (V i j)) (m + 2) c k = .ok t ∧
      readCsp t = .ok ns ∧
      ∀ pairs : List ((Fin 3 → K) × (Fin 3 → K)),
        (∀ p ∈ pairs, ∀ i : Fin 3, Spec.OnCurve lo hi (fun r => V r (j i)) (p.1 i) (p.2 i)) →
        processList A compat ns (pixelValues (pairs.map Prod.fst)) 3
          = .ok (pixelValues (pairs.map Prod.snd)) := by
  obtain ⟨t, r, b, h⟩ := csp1d_curve A hA compat hk hkc V hV hlo hhi hlt j hj
  exact ⟨t, [r, b], h⟩

/-- Three samples over [0, 2]. -/
example : (∀ i j, Spec.Six ((fun i j => (i : ℕ) * (j : ℕ) / 4 : Fin (1 + 2) → Fin 3 → ℚ) i j)) ∧
    Spec.Six (0 : ℚ) ∧ Spec.Six (2 : ℚ) ∧ ∀ i : Fin 3, (i : ℕ) = if 3 = 1 then 0 else (i : ℕ) := by
  refine ⟨fun i j => ⟨(i : ℕ) * (j : ℕ) * 250000, ?_⟩, ⟨0, by simp⟩, ⟨2000000, by norm_num⟩, fun _ => rfl⟩
  push_cast
  ring

/-- C84 is false: samples are rounded to six decimals. -/
theorem C84_false : ∃ (V : Fin 2 → Fin 3 → Flt ℚ) (t : Txt) (range : Node ℚ) (n : Base ℚ) (arr : Arr ℚ),
    writeCsp1d (.fin 0) (.fin 1) (Spec.rowMajor V) 2 3 3 = .ok t ∧
    readCsp t = .ok [range, .leaf .lut1d n] ∧ n.array = .ok arr ∧ arr.values ≠ Spec.rowMajor V := by
  obtain ⟨t, h1, h2⟩ := readCsp1d_table (.fin 0) (.fin (1 : ℚ)) (fun (_ : Fin 2) (_ : Fin 3) => .fin (1 / 10 ^ 7))
    (.inr rfl) le_rfl id fun _ => rfl
  rw [lut1dSetArray_rows, py_ok_bind, py_pure] at h2
  refine ⟨_, t, _, _, _, h1, h2, rfl, ?_⟩
  show (Spec.rowMajor fun (_ : Fin 2) (_ : Fin 3) => back6 (.fin (1 / 10 ^ 7 : ℚ))) ≠
    Spec.rowMajor fun (_ : Fin 2) (_ : Fin 3) => .fin (1 / 10 ^ 7 : ℚ)
  decide +kernel

/-- A table of two components is written, and read back as zeros. -/
theorem C84_two_components :
    (do
      let t ← writeCsp1d (K := ℚ) (.fin 0) (.fin 1) [.fin 1, .fin 1, .fin 2, .fin 2] 2 2 2
      let c : Option (Csp ℚ) ← cspParse t
      pure (c.map Csp.samples)) = .ok (some (List.replicate 6 (.fin 0))) := by
  decide +kernel

end CLF
