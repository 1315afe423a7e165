import Verif.Lemmas.Csp
import Verif.Props.Spi
import Mathlib.Tactic.IntervalCases
import Mathlib.Data.List.TakeWhile

/-! # Properties C55 and C75: CSP files -/

set_option linter.unusedSectionVars false

namespace CLF

variable {K : Type} [Field K] [LinearOrder K] [IsStrictOrderedRing K] [FloorRing K]

/-! ### C55: order -/

theorem range_mul_flatMap {α : Type} (a b : ℕ) (F : ℕ → List α) :
    (List.range a).flatMap (fun i => (List.range b).flatMap fun j => F (i * b + j))
      = (List.range (a * b)).flatMap F := by
  have := congrArg List.flatten (range_mul_map a b F)
  rw [← List.flatMap_def, List.flatMap_def, List.flatten_flatten, List.map_map] at this
  rw [← this, List.flatMap_def]
  rfl

theorem flatMap_cube {α : Type} (n : ℕ) (c : ℕ → Fin 3 → α) :
    ((List.range (n * n * n)).flatMap fun q => List.ofFn (c q))
      = Spec.cube fun (r g b : Fin n) => c ((r * n + g) * n + b) := by
  rw [← range_mul_flatMap, ← range_mul_flatMap]
  unfold Spec.cube
  rw [List.flatMap_def, map_range_ofFn]
  congr 2
  funext r
  rw [List.flatMap_def, map_range_ofFn]
  congr 2
  funext g
  rw [List.flatMap_def, map_range_ofFn]

/-- C55: reading the lines of a cube puts the colour at file position `r + n(g + nb)` at
lattice point (r, g, b). -/
theorem C55_order (n : ℕ) (hn : 0 < n) (lines : List Txt) (hl : lines.length = n * n * n)
    (c : ℕ → Fin 3 → Flt K)
    (h : ∀ k (hk : k < lines.length), (words lines[k]).mapM (readFlt (K := K)) = .ok (List.ofFn (c k))) :
    cspTable true [n, n, n] lines
      = .ok (Spec.cube fun (r g b : Fin n) => c (r + n * (g + n * b))) := by
  have hg : ∀ i, i < 3 → pyGet [n, n, n] i = .ok n := by
    intro i hi
    interval_cases i <;> rfl
  have hlines : lines = (List.range' 0 (n * n * n)).map (fun k => lines[k]?.getD []) ++ [] := by
    rw [List.append_nil]
    apply List.ext_getElem
    · simp [hl]
    · intro k h1 h2
      simp [h1]
  unfold cspTable
  simp only [hg 0 (by omega), hg 1 (by omega), hg 2 (by omega), py_ok_bind, if_true]
  rw [replicate_flat (n * n * n) (flip3 n) fun k => List.ofFn (c k), hlines,
    cspLoop_places (cspIndex3 n n) (flip3 n) (flip3 n) (n * n * n)
      (fun k _ => cspIndex3_eq n k hn) (flip3_lt n) (fun q hq => ⟨(flip3_lt n q hq).2, (flip3_lt n q hq).1⟩)
      (fun k => lines[k]?.getD []) (fun k => List.ofFn (c k)) (by simp) ?_ [] (n * n * n) 0 (by omega),
    cspLoop]
  · rw [flatMap_cube n fun q => c (flip3 n q)]
    congr 2
    funext r g b
    rw [show ((r : ℕ) * n + g) * n + b = b + n * (g + n * r) by ring,
      flip3_digits n b g r b.2 g.2]
    congr 1
    ring
  · intro k hk
    have hk' : k < lines.length := by omega
    simpa [hk'] using h k hk'

/-- The eight corners of the unit cube, red fastest. -/
example : cspTable (K := ℚ) true [2, 2, 2] (["0 0 0", "1 0 0", "0 1 0", "1 1 0", "0 0 1", "1 0 1",
      "0 1 1", "1 1 1"].map String.toList)
    = .ok (Spec.cube fun (r g b : Fin 2) => ![.fin (r : ℕ), .fin (g : ℕ), .fin (b : ℕ)]) := by
  rw [C55_order 2 (by omega) _ rfl (fun k => ![.fin ((k % 2 : ℕ) : ℚ), .fin ((k / 2 % 2 : ℕ) : ℚ),
    .fin ((k / 4 : ℕ) : ℚ)])]
  · decide +kernel
  · intro k hk
    have : ∀ k : Fin 8, (words (["0 0 0", "1 0 0", "0 1 0", "1 1 0", "0 0 1", "1 0 1",
        "0 1 1", "1 1 1"].map String.toList)[(k : ℕ)]).mapM (readFlt (K := ℚ))
        = .ok (List.ofFn ![.fin ((k % 2 : ℕ) : ℚ), .fin ((k / 2 % 2 : ℕ) : ℚ), .fin ((k / 4 : ℕ) : ℚ)]) := by
      decide +kernel
    exact this ⟨k, hk⟩

/-! ### The lines of a file -/

theorem rstrip_ne {t : Txt} {c : Char} (hc : c ∈ t) (hs : isSpace c = false) : rstrip t ≠ [] := by
  unfold rstrip
  intro e
  rw [List.reverse_eq_nil_iff, List.dropWhile_eq_nil_iff] at e
  have := e c (List.mem_reverse.mpr hc)
  rw [hs] at this
  cases this

theorem rstrip_word {t : Txt} (ht : NoSpace t) (hne : t ≠ []) : rstrip t ≠ [] := by
  obtain ⟨c, t, rfl⟩ := List.exists_cons_of_ne_nil hne
  exact rstrip_ne (by simp) (ht c (by simp))

/-- The lines of a file: nine prelut lines, the resolution, the table. -/
def cspFile (format : String) (pre : List Txt) (dims : Txt) (rows : List Txt) : List Txt :=
  ["CSPLUTV100".toList, format.toList, [], "BEGIN METADATA".toList, "END METADATA".toList, []] ++ pre ++
    [] :: dims :: rows

/-- Reading such a file. -/
theorem cspParse_file (three : Bool) (a0 a1 a2 b0 b1 b2 c0 c1 c2 dims : Txt) (rows : List Txt)
    (hone : ∀ l ∈ [a0, a1, a2, b0, b1, b2, c0, c1, c2, dims] ++ rows, OneLine l)
    {n0 n1 n2 : ℕ} (hn0 : parseNat a0 = .ok n0) (hn1 : parseNat b0 = .ok n1) (hn2 : parseNat c0 = .ok n2)
    {xr yr xg yg xb yb : List (Flt K)}
    (hxr : (words a1).mapM (readFlt (K := K)) = .ok xr) (hyr : (words a2).mapM (readFlt (K := K)) = .ok yr)
    (hxg : (words b1).mapM (readFlt (K := K)) = .ok xg) (hyg : (words b2).mapM (readFlt (K := K)) = .ok yg)
    (hxb : (words c1).mapM (readFlt (K := K)) = .ok xb) (hyb : (words c2).mapM (readFlt (K := K)) = .ok yb)
    (ha : rstrip a0 ≠ []) (hd : rstrip dims ≠ []) (res : List ℕ) (hres : readNats dims = .ok res) :
    cspParse (unlines (cspFile (if three then "3D" else "1D") [a0, a1, a2, b0, b1, b2, c0, c1, c2] dims rows))
      = (do
        let samples ← cspTable three res rows
        pure (some ⟨three, ((xr, yr), (xg, yg), (xb, yb)), res, samples⟩)) := by
  unfold cspParse
  rw [splitLines_unlines]
  · have w0 : words "CSPLUTV100".toList = ["CSPLUTV100".toList] := by decide
    have w1 : words (if three = true then "3D" else "1D").toList = [(if three = true then "3D" else "1D").toList] := by
      cases three <;> decide
    have g0 : ∀ (x : Txt) (l : List Txt), pyGet (x :: l) 0 = .ok x := fun _ _ => rfl
    have g1 : ∀ (x y : Txt) (l : List Txt), pyGet (x :: y :: l) 1 = .ok y := fun _ _ _ => rfl
    have hf : ((if three = true then "3D" else "1D").toList = "1D".toList ∨
        (if three = true then "3D" else "1D").toList = "3D".toList) = True := by
      cases three <;> decide
    have h3 : decide ((if three = true then "3D" else "1D").toList = "3D".toList) = three := by
      cases three <;> decide
    simp only [cspFile, List.cons_append, List.nil_append, g0, g1, w0, w1, py_ok_bind, if_true, hf, h3,
      List.drop_succ_cons, List.drop_zero]
    have m1 : (rstrip [] = "BEGIN METADATA".toList) = False := by decide
    have m2 : (rstrip "BEGIN METADATA".toList = "BEGIN METADATA".toList) = True := by decide
    have m3 : (rstrip "END METADATA".toList = "END METADATA".toList) = True := by decide
    have m4 : (rstrip [] = []) = True := by decide
    simp only [afterBegin, m1, m2, if_true, if_false, py_ok_bind, afterEnd, m3, cspData,
      List.drop_succ_cons, List.drop_zero, skipBlank, ha]
    have gp : ∀ i (l : List Txt) (x : Txt), l[i]? = some x → pyGet l i = .ok x := by
      intro i l x h
      unfold pyGet
      rw [h]
    have r1 : readPrelut (a0 :: a1 :: a2 :: b0 :: b1 :: b2 :: c0 :: c1 :: c2 :: [] :: dims :: rows) 0
        = .ok (xr, yr) := by
      unfold readPrelut
      rw [gp 0 _ a0 rfl, gp 1 _ a1 rfl, gp 2 _ a2 rfl]
      simp only [py_ok_bind, hn0, hxr, hyr, py_pure]
    have r2 : readPrelut (a0 :: a1 :: a2 :: b0 :: b1 :: b2 :: c0 :: c1 :: c2 :: [] :: dims :: rows) 3
        = .ok (xg, yg) := by
      unfold readPrelut
      rw [gp 3 _ b0 rfl, gp 4 _ b1 rfl, gp 5 _ b2 rfl]
      simp only [py_ok_bind, hn1, hxg, hyg, py_pure]
    have r3 : readPrelut (a0 :: a1 :: a2 :: b0 :: b1 :: b2 :: c0 :: c1 :: c2 :: [] :: dims :: rows) 6
        = .ok (xb, yb) := by
      unfold readPrelut
      rw [gp 6 _ c0 rfl, gp 7 _ c1 rfl, gp 8 _ c2 rfl]
      simp only [py_ok_bind, hn2, hxb, hyb, py_pure]
    rw [r1, py_ok_bind, r2, py_ok_bind, r3, py_ok_bind]
    simp only [hd, if_false, py_ok_bind, g0, hres, List.drop_succ_cons, List.drop_zero]
    cases cspTable (K := K) three res rows with
    | error e => rfl
    | ok v => rfl
  · intro l hl
    have lit : ∀ s : Txt, s.all (fun c => c ≠ '\n' ∧ c ≠ '\r') = true → OneLine s := oneLine_lit
    simp only [cspFile, List.cons_append, List.nil_append, List.mem_cons] at hl
    rcases hl with rfl | rfl | rfl | rfl | rfl | rfl | hl
    · exact lit _ (by decide)
    · clear hone
      cases three <;> exact lit _ (by decide)
    · exact lit _ (by decide)
    · exact lit _ (by decide)
    · exact lit _ (by decide)
    · exact lit _ (by decide)
    · rcases hl with rfl | rfl | rfl | rfl | rfl | rfl | rfl | rfl | rfl | rfl | rfl | hl
      iterate 9 exact hone _ (by simp)
      · exact lit _ (by decide)
      · exact hone _ (by simp)
      · exact hone _ (by simp [hl])

/-! ### C55: round trip -/

/-- The number text of CSP files. -/
theorem numText_show6 : Spec.NumText (K := K) (fun x => show6 (.ofFlt x)) back6 where
  noSpace x := show6_noSpace _
  nonempty x := show6_ne _
  read x := readFlt_show6 x

/-- The three lines of a two-entry prelut. -/
def pre2 (lo hi : Flt K) : List Txt :=
  ["2".toList, show6 (.ofFlt lo) ++ ' ' :: show6 (.ofFlt hi), "0.0 1.0".toList]

theorem cspPrelut2_eq (lo hi : Flt K) : cspPrelut2 lo hi = unlines (pre2 lo hi) := by
  have e1 : "2\n".toList = "2".toList ++ ['\n'] := rfl
  have e2 : "\n0.0 1.0\n".toList = '\n' :: ("0.0 1.0".toList ++ ['\n']) := rfl
  unfold cspPrelut2 pre2
  rw [e1, e2]
  simp only [unlines, List.map_cons, List.map_nil, List.flatten_cons, List.flatten_nil,
    List.append_assoc, List.cons_append, List.nil_append, List.append_nil]

/-- The line of a colour. -/
def cspRow (v : List (Flt K)) : Txt := joinWith [' '] (v.map fun x => show6 (.ofFlt x))

theorem cspRow_read (v : List (Flt K)) :
    (words (cspRow v)).mapM (readFlt (K := K)) = .ok (v.map back6) := by
  unfold cspRow
  rw [words_joined, numText_show6.mapM]
  intro w hw
  obtain ⟨x, _, rfl⟩ := List.mem_map.mp hw
  exact numText_show6.word x

theorem cspRow_one (v : List (Flt K)) : OneLine (cspRow v) := by
  refine OneLine.join fun t ht => ?_
  obtain ⟨x, _, rfl⟩ := List.mem_map.mp ht
  exact (numText_show6.word x).1.oneLine

/-- The lines of a cube of side `n`, in file order. -/
def cspRows (n : ℕ) (F : ℕ → ℕ → ℕ → List (Flt K)) : List Txt :=
  (List.range (n * n * n)).map fun k => cspRow (F (k % n) (k / n % n) (k / n / n))

theorem cspCube_eq (n : ℕ) (F : ℕ → ℕ → ℕ → List (Flt K)) :
    cspCube (Spec.cubeOf n n n F) (n, n, n)
      = .ok (unlines (joinWith [' '] ([n, n, n].map showNat) :: cspRows n F)) := by
  have hm : (List.range n).mapM (fun b => (List.range n).mapM fun g => (List.range n).mapM fun r => do
      let plane ← pyGet (Spec.cubeOf n n n F) r
      let row ← pyGet plane g
      let v ← pyGet row b
      pure (joinWith [' '] (v.map fun x => show6 (.ofFlt x)) ++ ['\n']))
      = .ok ((List.range n).map fun b => (List.range n).map fun g => (List.range n).map fun r =>
        cspRow (F r g b) ++ ['\n']) := by
    apply py_mapM_ok
    intro b hb
    apply py_mapM_ok
    intro g hg
    apply py_mapM_ok
    intro r hr
    rw [List.mem_range] at hb hg hr
    unfold Spec.cubeOf
    rw [pyGet_range_map, if_pos hr, py_ok_bind, pyGet_range_map, if_pos hg, py_ok_bind,
      pyGet_range_map, if_pos hb, py_ok_bind]
    rfl
  have hrows : cspRows n F = (List.range n).flatMap fun b => (List.range n).flatMap fun g =>
      (List.range n).map fun r => cspRow (F r g b) := by
    unfold cspRows
    rw [← range_mul_map (n * n) n, ← range_mul_flatMap n n]
    rw [List.flatMap_def, List.flatMap_def]
    congr 1
    refine List.map_congr_left fun b hb => ?_
    rw [List.flatMap_def, List.flatMap_def]
    congr 1
    refine List.map_congr_left fun g hg => ?_
    refine List.map_congr_left fun r hr => ?_
    rw [List.mem_range] at hb hg hr
    have hn : 0 < n := by omega
    have e1 : ((b * n + g) * n + r) / n = b * n + g := by
      rw [Nat.add_comm, Nat.add_mul_div_right _ _ hn, Nat.div_eq_of_lt hr, Nat.zero_add]
    have e2 : ((b * n + g) * n + r) % n = r := by
      rw [Nat.add_comm, Nat.add_mul_mod_self_right, Nat.mod_eq_of_lt hr]
    have e3 : (b * n + g) / n = b := by
      rw [Nat.add_comm, Nat.add_mul_div_right _ _ hn, Nat.div_eq_of_lt hg, Nat.zero_add]
    have e4 : (b * n + g) % n = g := by
      rw [Nat.add_comm, Nat.add_mul_mod_self_right, Nat.mod_eq_of_lt hg]
    rw [e1, e2, e3, e4]
  unfold cspCube
  dsimp only
  rw [hm, py_ok_bind, py_pure]
  congr 1
  have e : unlines (cspRows n F) = (((List.range n).map fun b => (List.range n).map fun g =>
      (List.range n).map fun r => cspRow (F r g b) ++ ['\n']).map
        fun p => (p.map List.flatten).flatten).flatten := by
    rw [hrows, List.flatMap_def, unlines_flatten, List.map_map, List.map_map]
    congr 1
    refine List.map_congr_left fun b _ => ?_
    simp only [Function.comp]
    rw [List.flatMap_def, unlines_flatten, List.map_map, List.map_map]
    congr 1
    refine List.map_congr_left fun g _ => ?_
    simp only [Function.comp, unlines, List.map_map]
    rfl
  rw [← e]
  simp only [unlines, List.map_cons, List.flatten_cons, List.append_assoc, List.cons_append,
    List.nil_append, List.map_nil]

theorem cspHead_eq (three : Bool) (pre : List Txt) (rest : List Txt) (dims : Txt) (rows : List Txt)
    (h : rest = dims :: rows) :
    cspHead (if three then "3D" else "1D") ++ unlines pre ++ ['\n'] ++ unlines rest
      = unlines (cspFile (if three then "3D" else "1D") pre dims rows) := by
  subst h
  have e1 : "CSPLUTV100\n".toList = "CSPLUTV100".toList ++ ['\n'] := rfl
  have e2 : "\n\nBEGIN METADATA\nEND METADATA\n\n".toList = '\n' :: '\n' :: ("BEGIN METADATA".toList ++
    '\n' :: ("END METADATA".toList ++ ['\n', '\n'])) := rfl
  unfold cspHead cspFile
  rw [e1, e2]
  simp only [unlines, List.map_cons, List.map_append, List.map_nil, List.flatten_cons,
    List.flatten_append, List.flatten_nil, List.append_assoc, List.cons_append, List.nil_append,
    List.append_nil]

theorem pre2_read (lo hi : Flt K) :
    (words (show6 (.ofFlt lo) ++ ' ' :: show6 (.ofFlt hi))).mapM (readFlt (K := K))
      = .ok [back6 lo, back6 hi] := by
  rw [words_two _ _ (numText_show6.word lo) (numText_show6.word hi)]
  simp only [py_mapM_cons, readFlt_show6, py_ok_bind, py_mapM_nil, py_pure]

theorem unit_read : (words "0.0 1.0".toList).mapM (readFlt (K := K)) = .ok [.fin 0, .fin 1] := by
  have w : words "0.0 1.0".toList = ["0.0".toList, "1.0".toList] := by decide
  have r0 : readFlt (K := K) "0.0".toList = .ok (.fin 0) := by
    have : parseFloat (K := K) "0.0".toList = .ok (.fin false ((0 : ℕ) * 10 ^ (-1 : ℤ))) := rfl
    rw [readFlt, this]
    simp [SFlt.toFlt]
  have r1 : readFlt (K := K) "1.0".toList = .ok (.fin 1) := by
    have : parseFloat (K := K) "1.0".toList = .ok (.fin false ((10 : ℕ) * 10 ^ (-1 : ℤ))) := rfl
    rw [readFlt, this]
    simp [SFlt.toFlt]
  rw [w]
  simp only [py_mapM_cons, r0, r1, py_ok_bind, py_mapM_nil, py_pure]

theorem dims_ne (l : List ℕ) (h : l ≠ []) : rstrip (joinWith [' '] (l.map showNat)) ≠ [] := by
  obtain ⟨n, l, rfl⟩ := List.exists_cons_of_ne_nil h
  obtain ⟨c, hc⟩ := List.exists_mem_of_ne_nil _ (showNat_ne n)
  refine rstrip_ne (c := c) ?_ ((isDig_showNat n).noSpace c hc)
  cases l with
  | nil => exact hc
  | cons a l =>
    simp only [List.map_cons, joinWith, List.append_assoc, List.mem_append]
    exact .inl hc

theorem dims_one (l : List ℕ) : OneLine (joinWith [' '] (l.map showNat)) := by
  refine OneLine.join fun t ht => ?_
  obtain ⟨n, _, rfl⟩ := List.mem_map.mp ht
  exact (isDig_showNat n).noSpace.oneLine

/-- A two-entry prelut over the same range for every channel is that range. -/
theorem cspPrelut_two (lo hi : Flt K) (yr yg yb : List (Flt K)) :
    cspPrelut ([lo, hi], yr) ([lo, hi], yg) ([lo, hi], yb)
      = .ok [boundedRange "prelut_range" lo hi (.fin 0) (.fin 1)] := by
  have h1 : Flt.pmin lo lo = lo := by unfold Flt.pmin; split <;> rfl
  have h2 : Flt.pmax hi hi = hi := by unfold Flt.pmax; split <;> rfl
  have g0 : pyGet [lo, hi] 0 = .ok lo := rfl
  have g1 : pyIdx [lo, hi] (-1) = .ok hi := rfl
  unfold cspPrelut
  simp only [g0, g1, py_ok_bind, h1, h2, List.length_cons, List.length_nil]
  rfl

/-- What reading a file with two-entry preluts gives. -/
theorem readCsp_two (three : Bool) (lo hi : Flt K) (dims : List ℕ) (hd : dims ≠ []) (rows : List Txt)
    (hone : ∀ l ∈ rows, OneLine l) :
    readCsp (unlines (cspFile (if three then "3D" else "1D") (pre2 lo hi ++ pre2 lo hi ++ pre2 lo hi)
      (joinWith [' '] (dims.map showNat)) rows)) = (do
        let samples ← cspTable three dims rows
        let lut ← if three then pure (.leaf .lut3d
            (lut3dSetArray (newLut3d float16 float16 (.str "lut3d") (.str "lut3d")) dims samples).1)
          else do
            let b ← lut1dSetArray (newLut1d float16 float16 (.str "lut1d") (.str "lut1d")) 3 samples
            pure (.leaf .lut1d b)
        pure [boundedRange "prelut_range" (back6 lo) (back6 hi) (.fin 0) (.fin 1), lut]) := by
  have hp : OneLine (show6 (.ofFlt lo) ++ ' ' :: show6 (.ofFlt hi)) :=
    (show6_noSpace _).oneLine.append (OneLine.cons (by decide) (show6_noSpace _).oneLine)
  unfold readCsp
  rw [show pre2 lo hi ++ pre2 lo hi ++ pre2 lo hi = ["2".toList,
    show6 (.ofFlt lo) ++ ' ' :: show6 (.ofFlt hi), "0.0 1.0".toList, "2".toList,
    show6 (.ofFlt lo) ++ ' ' :: show6 (.ofFlt hi), "0.0 1.0".toList, "2".toList,
    show6 (.ofFlt lo) ++ ' ' :: show6 (.ofFlt hi), "0.0 1.0".toList] from rfl,
    cspParse_file three _ _ _ _ _ _ _ _ _ _ rows ?_ (n0 := 2) (n1 := 2) (n2 := 2)
    (by decide) (by decide) (by decide) (pre2_read lo hi) unit_read (pre2_read lo hi) unit_read
    (pre2_read lo hi) unit_read (by decide) (dims_ne dims hd) dims (dims_back dims)]
  · cases cspTable (K := K) three dims rows with
    | error e => rfl
    | ok v =>
      simp only [py_ok_bind, py_pure, cspNodes, cspPrelut_two]
      cases three with
      | true => rfl
      | false =>
        simp only [Bool.false_eq_true, if_false]
        cases lut1dSetArray (newLut1d float16 float16 (.str "lut1d") (.str "lut1d")) 3 v with
        | error e => rfl
        | ok b => rfl
  · intro l hl
    have lit : ∀ s : Txt, s.all (fun c => c ≠ '\n' ∧ c ≠ '\r') = true → OneLine s := oneLine_lit
    simp only [List.cons_append, List.nil_append, List.mem_cons] at hl
    rcases hl with rfl | rfl | rfl | rfl | rfl | rfl | rfl | rfl | rfl | rfl | hl
    iterate 3
      · exact lit _ (by decide)
      · exact hp
      · exact lit _ (by decide)
    · exact dims_one dims
    · exact hone l hl

theorem writeCsp3d_eq (lo hi : Flt K) (n : ℕ) (F : ℕ → ℕ → ℕ → List (Flt K)) :
    writeCsp3d lo hi (Spec.cubeOf n n n F) (n, n, n)
      = .ok (unlines (cspFile (if true then "3D" else "1D") (pre2 lo hi ++ pre2 lo hi ++ pre2 lo hi)
        (joinWith [' '] ([n, n, n].map showNat)) (cspRows n F))) := by
  unfold writeCsp3d
  rw [cspCube_eq, py_ok_bind, py_pure, ← cspHead_eq true _ _ _ _ rfl]
  simp only [cspPrelut2_eq, unlines_append, List.append_assoc, if_true]

/-- The table read from a written cube. -/
theorem readCsp3d_table (lo hi : Flt K) (n : ℕ) (hn : 0 < n) (F : ℕ → ℕ → ℕ → Fin 3 → Flt K) :
    ∃ t, writeCsp3d lo hi (Spec.cubeOf n n n fun r g b => List.ofFn (F r g b)) (n, n, n) = .ok t ∧
      readCsp t = .ok [boundedRange "prelut_range" (back6 lo) (back6 hi) (.fin 0) (.fin 1),
        .leaf .lut3d (lut3dSetArray (newLut3d float16 float16 (.str "lut3d") (.str "lut3d")) [n, n, n]
          (Spec.cube fun (r g b : Fin n) ch => back6 (F r g b ch))).1] := by
  refine ⟨_, writeCsp3d_eq lo hi n _, ?_⟩
  rw [readCsp_two true lo hi [n, n, n] (by simp)]
  · rw [C55_order n hn _ (by simp [cspRows]) fun k ch =>
      back6 (F (k % n) (k / n % n) (k / n / n) ch)]
    · simp only [py_ok_bind, if_true, py_pure]
      congr 7
      funext r g b ch
      have e1 : ((r : ℕ) + n * (g + n * b)) / n = g + n * b := by
        rw [Nat.add_mul_div_left _ _ hn, Nat.div_eq_of_lt r.2, Nat.zero_add]
      rw [e1, Nat.add_mul_mod_self_left, Nat.mod_eq_of_lt r.2, Nat.add_mul_mod_self_left,
        Nat.mod_eq_of_lt g.2, Nat.add_mul_div_left _ _ hn, Nat.div_eq_of_lt g.2, Nat.zero_add]
    · intro k hk
      simp only [cspRows, List.getElem_map, List.getElem_range, cspRow_read, List.map_ofFn]
      rfl
  · intro l hl
    obtain ⟨k, _, rfl⟩ := List.mem_map.mp hl
    exact cspRow_one _

/-- C55, as far as it holds: a written cube comes back in its own order, every sample and
the range rounded to six decimals.  Missing: exact samples, of which only six decimals are
written (`C55_false`). -/
theorem C55_written_partial (lo hi : Flt K) (n : ℕ) (hn : 0 < n) (F : ℕ → ℕ → ℕ → Fin 3 → Flt K) :
    ∃ t lo' hi' b arr V, writeCsp3d lo hi (Spec.cubeOf n n n fun r g b => List.ofFn (F r g b)) (n, n, n)
        = .ok t ∧
      readCsp t = .ok [boundedRange "prelut_range" lo' hi' (.fin 0) (.fin 1), .leaf .lut3d b] ∧
      Spec.Near6 lo lo' ∧ Spec.Near6 hi hi' ∧ b.array = .ok arr ∧ arr.dims = [n, n, n, 3] ∧
      arr.values = Spec.cube V ∧
      ∀ (r g b : Fin n) (ch : Fin 3), Spec.Near6 (F r g b ch) (V r g b ch) := by
  obtain ⟨t, h1, h2⟩ := readCsp3d_table lo hi n hn F
  exact ⟨t, _, _, _, _, _, h1, h2, back6_near lo, back6_near hi, rfl, rfl, rfl,
    fun r g b ch => back6_near _⟩

theorem back6_six {x : K} (h : Spec.Six x) : back6 (.fin x) = .fin x := by
  have hn := back6_near (.fin x)
  generalize back6 (Flt.fin x) = y at hn
  cases y with
  | fin y => rw [hn.2 h]
  | inf _ => exact hn.elim
  | nan => exact hn.elim

theorem csp3d_lattice (A : Arith K) (hA : A.Exact) (compat : ℕ) {lo hi : K} (hlo : Spec.Six lo)
    (hhi : Spec.Six hi) (hlt : lo < hi) {m : ℕ} (hm : 0 < m) (F : ℕ → ℕ → ℕ → Fin 3 → K)
    (hF : ∀ r g b ch, Spec.Six (F r g b ch)) :
    ∃ t r b, writeCsp3d (.fin lo) (.fin hi)
        (Spec.cubeOf (m + 1) (m + 1) (m + 1) fun r g b => Spec.fins (F r g b)) (m + 1, m + 1, m + 1)
        = .ok t ∧
      readCsp t = .ok [r, b] ∧
      ∀ points : List (Fin (m + 1) × Fin (m + 1) × Fin (m + 1)),
        processList A compat [r, b] (pixelValues (points.map fun p =>
          ![Spec.grid m lo hi p.1, Spec.grid m lo hi p.2.1, Spec.grid m lo hi p.2.2])) 3
        = .ok (pixelValues (points.map fun p => F p.1 p.2.1 p.2.2)) := by
  obtain ⟨t, h1, h2⟩ := readCsp3d_table (.fin lo) (.fin hi) (m + 1) (by omega)
    fun r g b ch => .fin (F r g b ch)
  refine ⟨t, _, _, h1, h2, fun points => ?_⟩
  simp only [back6_six hlo, back6_six hhi, back6_six (hF _ _ _ _)]
  have hM : (0 : K) < m := Nat.cast_pos.mpr hm
  generalize hb : (lut3dSetArray (newLut3d float16 float16 (.str "lut3d") (.str "lut3d")) _ _).1 = b
  have d1 : (boundedRange "prelut_range" (.fin lo) (.fin hi) (.fin 0) (.fin 1) : Node K).attr "bypass"
      = none := rfl
  have d2 : (Node.leaf .lut3d b).attr "bypass" = none := by subst hb; rfl
  rw [processList_two A hA compat 3 _ _ d1 d2, boundedRange_pixels A hA compat 3 _ hlt.ne, py_ok_bind,
    List.map_map]
  have hg : ∀ k : Fin (m + 1), min 1 (max 0 (Spec.affine lo hi 0 1 (Spec.grid m lo hi k)))
      = ((k : ℕ) : K) / m := by
    intro k
    have hk : ((k : ℕ) : K) ≤ m := Nat.cast_le.mpr (Nat.lt_succ_iff.mp k.2)
    have e : Spec.affine lo hi 0 1 (Spec.grid m lo hi k) = ((k : ℕ) : K) / m := by
      have := (sub_pos.mpr hlt).ne'
      have := hM.ne'
      simp only [affine_unit, Spec.grid]
      field_simp
      ring
    rw [e, max_eq_right (div_nonneg (Nat.cast_nonneg _) hM.le),
      min_eq_right ((div_le_one hM).mpr hk)]
  have hp : (points.map ((fun p i => min 1 (max 0 (Spec.affine lo hi 0 1 (p i)))) ∘ fun p =>
        ![Spec.grid m lo hi p.1, Spec.grid m lo hi p.2.1, Spec.grid m lo hi p.2.2]))
      = points.map fun p => ![((p.1 : ℕ) : K) / m, ((p.2.1 : ℕ) : K) / m, ((p.2.2 : ℕ) : K) / m] := by
    refine List.map_congr_left fun p _ => ?_
    funext i
    fin_cases i <;> exact hg _
  rw [hp]
  subst hb
  exact lut3d_out A hA compat hm _ (.str "trilinear") (.inl rfl) _ ⟨rfl, rfl, rfl, rfl, rfl⟩
    (fun r g b => F r g b) ⟨⟨[3], rfl⟩, rfl⟩ points

/-- C55, as far as it holds: a written cube of samples with at most six decimals, over such
a range, is read into a list that returns sample (r, g, b) at lattice point (r, g, b) of the
range. -/
theorem C55_lattice_partial (A : Arith K) (hA : A.Exact) (compat : ℕ) {lo hi : K} (hlo : Spec.Six lo)
    (hhi : Spec.Six hi) (hlt : lo < hi) {m : ℕ} (hm : 0 < m) (F : ℕ → ℕ → ℕ → Fin 3 → K)
    (hF : ∀ r g b ch, Spec.Six (F r g b ch)) :
    ∃ t ns, writeCsp3d (.fin lo) (.fin hi)
        (Spec.cubeOf (m + 1) (m + 1) (m + 1) fun r g b => Spec.fins (F r g b)) (m + 1, m + 1, m + 1)
        = .ok t ∧
      readCsp t = .ok ns ∧
      ∀ points : List (Fin (m + 1) × Fin (m + 1) × Fin (m + 1)),
        processList A compat ns (pixelValues (points.map fun p =>
          ![Spec.grid m lo hi p.1, Spec.grid m lo hi p.2.1, Spec.grid m lo hi p.2.2])) 3
        = .ok (pixelValues (points.map fun p => F p.1 p.2.1 p.2.2)) := by
  obtain ⟨t, r, b, h⟩ := csp3d_lattice A hA compat hlo hhi hlt hm F hF
  exact ⟨t, [r, b], h⟩

/-- A cube of side three over [-1, 2]. -/
example : ∃ t ns, writeCsp3d (.fin (-1)) (.fin 2) (Spec.cubeOf 3 3 3 fun r g b =>
      Spec.fins ![(r : ℚ) / 2, (g * g : ℕ), (b : ℚ) - 1]) (3, 3, 3) = .ok t ∧
    readCsp t = .ok ns ∧
    processList ratArith 2 ns (pixelValues [![-1, 1 / 2, 2], ![2, 2, -1]]) 3
      = .ok (pixelValues [![0, 1, 1], ![1, 4, -1]]) := by
  obtain ⟨t, ns, h1, h2, h3⟩ := C55_lattice_partial ratArith (fun _ => rfl) 2 (lo := -1) (hi := 2)
    ⟨-1000000, by norm_num⟩ ⟨2000000, by norm_num⟩ (by norm_num) (m := 2) (by omega)
    (fun r g b => ![(r : ℚ) / 2, (g * g : ℕ), (b : ℚ) - 1]) (by
      intro r g b ch
      fin_cases ch
      · exact ⟨r * 500000, by simp; ring⟩
      · exact ⟨(g * g : ℕ) * 1000000, by simp; ring⟩
      · exact ⟨(b - 1) * 1000000, by simp; ring⟩)
  refine ⟨t, ns, h1, h2, ?_⟩
  have := h3 [(0, 1, 2), (2, 2, 0)]
  convert this using 3
  · decide +kernel
  · decide +kernel

/-- C55 is false: the sample 1/10⁷ comes back as 0. -/
theorem C55_false : ∃ (F : ℕ → ℕ → ℕ → Fin 3 → Flt ℚ) (t : Txt) (range : Node ℚ) (n : Base ℚ) (arr : Arr ℚ),
    writeCsp3d (.fin 0) (.fin 1) (Spec.cubeOf 1 1 1 fun r g b => List.ofFn (F r g b)) (1, 1, 1) = .ok t ∧
    readCsp t = .ok [range, .leaf .lut3d n] ∧ n.array = .ok arr ∧
    arr.values ≠ Spec.cube fun (r g b : Fin 1) => F r g b := by
  obtain ⟨t, h1, h2⟩ := readCsp3d_table (.fin 0) (.fin (1 : ℚ)) 1 (by omega)
    fun _ _ _ _ => .fin (1 / 10 ^ 7)
  refine ⟨_, t, _, _, _, h1, h2, rfl, ?_⟩
  show (Spec.cube fun (_ _ _ : Fin 1) (_ : Fin 3) => back6 (.fin (1 / 10 ^ 7 : ℚ))) ≠
    Spec.cube fun (_ _ _ : Fin 1) (_ : Fin 3) => .fin (1 / 10 ^ 7 : ℚ)
  decide +kernel

/-- With sides that differ the reader misplaces colours: of a 1 × 2 × 1 table the second
colour goes behind the end. -/
theorem C55_unequal_sides : cspTable (K := ℚ) true [1, 2, 1] ["1 1 1".toList, "2 2 2".toList]
    = .ok [.fin 1, .fin 1, .fin 1, .fin 0, .fin 0, .fin 0, .fin 2, .fin 2, .fin 2] := by
  decide +kernel

end CLF
