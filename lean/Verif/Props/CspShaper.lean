import Verif.Props.CspPrelut
import Verif.Props.Ocio
import Verif.Props.Nodes

/-!
# C109: cubes behind a shaper in CSP files
-/

set_option linter.unusedSectionVars false

namespace CLF

variable {K : Type} [Field K] [LinearOrder K] [IsStrictOrderedRing K] [FloorRing K]

theorem trailed_read (vs : List (Flt K)) :
    (words (trailed vs)).mapM (readFlt (K := K)) = .ok (vs.map back6) := by
  unfold trailed
  induction vs with
  | nil => rfl
  | cons v vs ih =>
    rw [List.map_cons, List.flatten_cons, List.append_assoc, List.singleton_append,
      words_word _ (show6_noSpace _) (show6_ne _) ' ' (by decide), py_mapM_cons, readFlt_show6,
      py_ok_bind, ih]
    rfl

theorem trailed_one (vs : List (Flt K)) : OneLine (trailed vs) := by
  unfold trailed
  induction vs with
  | nil => intro c hc; simp at hc
  | cons v vs ih =>
    rw [List.map_cons, List.flatten_cons, List.append_assoc]
    exact (show6_noSpace _).oneLine.append (OneLine.cons (by decide) ih)

/-- The lines of one channel of a shaper. -/
def shaperLines (n : ℕ) (xs ys : List (Flt K)) : List Txt := [showNat n, trailed xs, trailed ys]

theorem back6_fin (x : K) : ∃ y, back6 (.fin x) = .fin y := by
  have hn := back6_near (.fin x)
  generalize back6 (Flt.fin x) = y at hn
  cases y with
  | fin y => exact ⟨y, rfl⟩
  | inf _ => exact hn.elim
  | nan => exact hn.elim

/-- The text of a shaped cube. -/
theorem writeCsp1d3d_eq {n : ℕ} (xs : Fin n → Flt K) (S : Fin n → Fin 3 → Flt K) (lo hi : Flt K)
    (hx : ∀ i : Fin n, samplePoint n lo hi i = .ok (xs i)) (r : ℕ) (F : ℕ → ℕ → ℕ → List (Flt K)) :
    writeCsp1d3d (Spec.rowMajor S) n lo hi (Spec.cubeOf r r r F) (r, r, r)
      = .ok (unlines (cspFile (if true then "3D" else "1D")
        ((List.ofFn fun c : Fin 3 => shaperLines n (List.ofFn xs) (List.ofFn fun k => S k c)).flatten)
        (joinWith [' '] ([r, r, r].map showNat)) (cspRows r F))) := by
  have hp : (List.range 3).mapM (fun c => do
      let xs ← (List.range n).mapM fun i => samplePoint n lo hi i
      let ys ← (List.range n).mapM fun i => pyGet (Spec.rowMajor S) (i * 3 + c)
      pure (showNat n ++ ['\n'] ++ trailed xs ++ ['\n'] ++ trailed ys ++ ['\n']))
      = .ok (List.ofFn fun c : Fin 3 =>
        unlines (shaperLines n (List.ofFn xs) (List.ofFn fun k => S k c))) := by
    apply range_mapM_ofFn
    intro c
    rw [range_mapM_ofFn n _ xs hx, py_ok_bind, range_mapM_ofFn n _ (fun k => S k c), py_ok_bind, py_pure]
    · simp only [unlines, shaperLines, List.map_cons, List.map_nil, List.flatten_cons,
        List.flatten_nil, List.append_assoc, List.append_nil]
    · intro i
      rw [Nat.add_comm, rowMajor_get S i c i.2 c.2]
  unfold writeCsp1d3d
  rw [hp, py_ok_bind, cspCube_eq, py_ok_bind, py_pure, ← cspHead_eq true _ _ _ _ rfl,
    unlines_flatten, List.map_ofFn]
  rfl

/-- What a shaped cube is read as. -/
theorem readCsp1d3d {n : ℕ} (xs : Fin n → Flt K) (S : Fin n → Fin 3 → Flt K) (lo hi : Flt K)
    (hx : ∀ i : Fin n, samplePoint n lo hi i = .ok (xs i)) (r : ℕ) (hr : 0 < r)
    (F : ℕ → ℕ → ℕ → Fin 3 → Flt K) :
    ∃ t, writeCsp1d3d (Spec.rowMajor S) n lo hi (Spec.cubeOf r r r fun i j k => List.ofFn (F i j k))
        (r, r, r) = .ok t ∧
      readCsp t = (do
        let pre ← cspPrelut ((List.ofFn xs).map back6, (List.ofFn fun k => S k 0).map back6)
          ((List.ofFn xs).map back6, (List.ofFn fun k => S k 1).map back6)
          ((List.ofFn xs).map back6, (List.ofFn fun k => S k 2).map back6)
        pure (pre ++ [.leaf .lut3d
          (lut3dSetArray (newLut3d float16 float16 (.str "lut3d") (.str "lut3d")) [r, r, r]
            (Spec.cube fun (i j k : Fin r) ch => back6 (F i j k ch))).1])) := by
  refine ⟨_, writeCsp1d3d_eq xs S lo hi hx r _, ?_⟩
  have hl : (List.ofFn fun c : Fin 3 => shaperLines n (List.ofFn xs) (List.ofFn fun k => S k c)).flatten
      = [showNat n, trailed (List.ofFn xs), trailed (List.ofFn fun k => S k 0),
        showNat n, trailed (List.ofFn xs), trailed (List.ofFn fun k => S k 1),
        showNat n, trailed (List.ofFn xs), trailed (List.ofFn fun k => S k 2)] := rfl
  have hn := parseNat_showNat n
  unfold readCsp
  rw [hl, cspParse_file true _ _ _ _ _ _ _ _ _ _ _ ?_ hn hn hn (trailed_read _) (trailed_read _)
    (trailed_read _) (trailed_read _) (trailed_read _) (trailed_read _) (rstrip_word
      (isDig_showNat n).noSpace (showNat_ne n)) (dims_ne _ (by simp)) [r, r, r] (dims_back _)]
  · rw [C55_order r hr _ (by simp [cspRows]) fun k ch =>
      back6 (F (k % r) (k / r % r) (k / r / r) ch)]
    · simp only [py_ok_bind, py_pure, cspNodes, if_true]
      congr 1
      funext pre
      congr 7
      funext a g b ch
      have e1 : ((a : ℕ) + r * (g + r * b)) / r = g + r * b := by
        rw [Nat.add_mul_div_left _ _ hr, Nat.div_eq_of_lt a.2, Nat.zero_add]
      rw [e1, Nat.add_mul_mod_self_left, Nat.mod_eq_of_lt a.2, Nat.add_mul_mod_self_left,
        Nat.mod_eq_of_lt g.2, Nat.add_mul_div_left _ _ hr, Nat.div_eq_of_lt g.2, Nat.zero_add]
    · intro k hk
      simp only [cspRows, List.getElem_map, List.getElem_range, cspRow_read, List.map_ofFn]
      rfl
  · intro l hl
    have hd : OneLine (showNat n) := (isDig_showNat n).noSpace.oneLine
    simp only [List.cons_append, List.nil_append, List.mem_cons] at hl
    rcases hl with rfl | rfl | rfl | rfl | rfl | rfl | rfl | rfl | rfl | rfl | hl
    iterate 3
      · exact hd
      · exact trailed_one _
      · exact trailed_one _
    · exact dims_one _
    · obtain ⟨k, _, rfl⟩ := List.mem_map.mp hl
      exact cspRow_one _

/-- The table node of a shaped cube. -/
def shapedCube (r : ℕ) (F : ℕ → ℕ → ℕ → Fin 3 → Flt K) : Base K :=
  (lut3dSetArray (newLut3d float16 float16 (.str "lut3d") (.str "lut3d")) [r, r, r]
    (Spec.cube fun (i j k : Fin r) ch => back6 (F i j k ch))).1

theorem csp1d3d_nodes (A : Arith K) (hA : A.Exact) (compat : ℕ) {m : ℕ} {lo hi : K}
    (hstep : ((m + 2 : ℕ) : K) / 10 ^ 6 < hi - lo) (S : Fin (m + 3) → Fin 3 → K) (r : ℕ) (hr : 0 < r)
    (F : ℕ → ℕ → ℕ → Fin 3 → Flt K) :
    ∃ t pre, ∃ (X : Fin (m + 3) → K) (Y : Fin 3 → Fin (m + 3) → K) (T : Fin 3 → Fin (2 * m + 6) → K),
      writeCsp1d3d (Spec.rowMajor fun k i => Flt.fin (S k i)) (m + 3) (.fin lo) (.fin hi)
        (Spec.cubeOf r r r fun i j k => List.ofFn (F i j k)) (r, r, r) = .ok t ∧
      readCsp t = .ok (pre ++ [.leaf .lut3d (shapedCube r F)]) ∧
      (∀ k : Fin (m + 3), Spec.Near6 (.fin (Spec.grid (m + 2) lo hi k)) (.fin (X k))) ∧
      (∀ i k, Spec.Near6 (.fin (S k i)) (.fin (Y i k))) ∧
      StrictMono X ∧
      (∀ i (k : Fin (2 * m + 6)), Spec.OnPolyline (m := m + 2) X (Y i)
        (Spec.grid (2 * m + 5) (X 0) (X (Fin.last (m + 2))) k) (T i k)) ∧
      ∀ pairs : List ((Fin 3 → K) × (Fin 3 → K)),
        (∀ p ∈ pairs, ∀ i : Fin 3,
          Spec.OnCurve (m := 2 * m + 5) (X 0) (X (Fin.last (m + 2))) (T i) (p.1 i) (p.2 i)) →
        processList A compat (pre ++ [.leaf .lut3d (shapedCube r F)]) (pixelValues (pairs.map Prod.fst)) 3
          = processList A compat [.leaf .lut3d (shapedCube r F)] (pixelValues (pairs.map Prod.snd)) 3 := by
  obtain ⟨t, h1, h2⟩ := readCsp1d3d (fun k : Fin (m + 3) => .fin (Spec.grid (m + 2) lo hi k))
    (fun k i => .fin (S k i)) (.fin lo) (.fin hi)
    (fun i => samplePoint_fin (m + 1) lo hi i) r hr F
  choose R hR using back6_fin (K := K)
  let X : Fin (m + 3) → K := fun k => R (Spec.grid (m + 2) lo hi k)
  have hX : StrictMono X := by
    rw [Fin.strictMono_iff_lt_succ]
    intro k
    have q1 := back6_near (.fin (Spec.grid (m + 2) lo hi (k.castSucc : Fin (m + 3))))
    have q2 := back6_near (.fin (Spec.grid (m + 2) lo hi (k.succ : Fin (m + 3))))
    rw [hR] at q1 q2
    have q1 := abs_le.mp q1.1
    have q2 := abs_le.mp q2.1
    have hM : (0 : K) < ((m + 2 : ℕ) : K) := Nat.cast_pos.mpr (by omega)
    have hs : 1 / 10 ^ 6 < (hi - lo) / ((m + 2 : ℕ) : K) := by
      rw [lt_div_iff₀ hM]
      calc _ = ((m + 2 : ℕ) : K) / 10 ^ 6 := by ring
        _ < _ := hstep
    have e : Spec.grid (m + 2) lo hi (k.succ : Fin (m + 3)) = Spec.grid (m + 2) lo hi (k.castSucc : Fin (m + 3))
        + (hi - lo) / ((m + 2 : ℕ) : K) := by
      simp only [Spec.grid, Fin.val_succ, Fin.val_castSucc]
      push_cast
      ring
    have e2 : (1 : K) / 2 / 10 ^ 6 + 1 / 2 / 10 ^ 6 = 1 / 10 ^ 6 := by ring
    show R _ < R _
    linarith [q1.1, q1.2, q2.1, q2.2]
  obtain ⟨pre, T, p1, pT, p2⟩ := C75_resampled A hA compat (fun _ => X) (fun i k => R (S k i))
    (fun _ => hX) (lo := X 0) (hi := X (Fin.last (m + 2))) (fun _ => rfl) (fun _ => rfl)
  have hpre : ∀ i : Fin 3, ((List.ofFn fun k : Fin (m + 3) => Flt.fin (Spec.grid (m + 2) lo hi k)).map back6,
      (List.ofFn fun k => Flt.fin (S k i)).map back6) = prelutOf X fun k => R (S k i) := by
    intro i
    simp only [prelutOf, List.map_ofFn, Function.comp_def, hR, X]
  rw [hpre 0, hpre 1, hpre 2, p1, py_ok_bind, py_pure] at h2
  refine ⟨t, pre, X, fun i k => R (S k i), T, h1, h2, ?_, ?_, hX, pT, ?_⟩
  · intro k
    have := back6_near (.fin (Spec.grid (m + 2) lo hi k))
    rwa [hR] at this
  · intro i k
    have := back6_near (.fin (S k i))
    rwa [hR] at this
  · intro pairs hp
    have hnb := readCsp_noBypass h2
    change NoBypass (pre ++ [.leaf .lut3d (shapedCube r F)]) at hnb
    generalize (Node.leaf .lut3d (shapedCube r F) : Node K) = b at *
    have := processList_parts A hA compat 3 [pre, [b]] (by simpa using hnb) (pixelValues (pairs.map Prod.fst))
    simp only [List.flatten_cons, List.flatten_nil, List.append_nil] at this
    rw [this]
    simp only [List.foldlM_cons, List.foldlM_nil]
    rw [p2 pairs hp, py_ok_bind]
    cases processList A compat [b] (pixelValues (pairs.map Prod.snd)) 3 <;> rfl

/-- C109, what holds for every colour of the range: a cube behind a shaper of three or more
entries is read as nodes that map colours through a polyline and then through the cube.  The
polyline goes through the points at which the shaper is resampled.  Range, shaper and cube
are rounded to six decimals. -/
theorem C109_resampled (A : Arith K) (hA : A.Exact) (compat : ℕ) {m : ℕ} {lo hi : K}
    (hstep : ((m + 2 : ℕ) : K) / 10 ^ 6 < hi - lo) (S : Fin (m + 3) → Fin 3 → K) (r : ℕ) (hr : 0 < r)
    (F : ℕ → ℕ → ℕ → Fin 3 → Flt K) :
    ∃ t pre b arr V, ∃ (X : Fin (m + 3) → K) (Y : Fin 3 → Fin (m + 3) → K) (T : Fin 3 → Fin (2 * m + 6) → K),
      writeCsp1d3d (Spec.rowMajor fun k i => Flt.fin (S k i)) (m + 3) (.fin lo) (.fin hi)
        (Spec.cubeOf r r r fun i j k => List.ofFn (F i j k)) (r, r, r) = .ok t ∧
      readCsp t = .ok (pre ++ [.leaf .lut3d b]) ∧
      (∀ k : Fin (m + 3), Spec.Near6 (.fin (Spec.grid (m + 2) lo hi k)) (.fin (X k))) ∧
      (∀ i k, Spec.Near6 (.fin (S k i)) (.fin (Y i k))) ∧
      b.array = .ok arr ∧ arr.dims = [r, r, r, 3] ∧ arr.values = Spec.cube V ∧
      (∀ (i j k : Fin r) (ch : Fin 3), Spec.Near6 (F i j k ch) (V i j k ch)) ∧
      StrictMono X ∧
      (∀ i (k : Fin (2 * m + 6)), Spec.OnPolyline (m := m + 2) X (Y i)
        (Spec.grid (2 * m + 5) (X 0) (X (Fin.last (m + 2))) k) (T i k)) ∧
      ∀ pairs : List ((Fin 3 → K) × (Fin 3 → K)),
        (∀ p ∈ pairs, ∀ i : Fin 3,
          Spec.OnCurve (m := 2 * m + 5) (X 0) (X (Fin.last (m + 2))) (T i) (p.1 i) (p.2 i)) →
        processList A compat (pre ++ [.leaf .lut3d b]) (pixelValues (pairs.map Prod.fst)) 3
          = processList A compat [.leaf .lut3d b] (pixelValues (pairs.map Prod.snd)) 3 := by
  obtain ⟨t, pre, X, Y, T, h1, h2, h3, h4, h5, h6, h7⟩ := csp1d3d_nodes A hA compat hstep S r hr F
  exact ⟨t, pre, _, _, _, X, Y, T, h1, h2, h3, h4, rfl, rfl, rfl, fun i j k ch => back6_near _, h5, h6, h7⟩

/-- C109, as far as it holds: where the shaper leads to a lattice point of the cube, the nodes
give the sample of that point, if range, shaper and cube have no more than six decimals and
the colour is at one of the resampled positions.  Missing: the other colours, and shapers of
two entries (`C109_false`). -/
theorem C109_partial (A : Arith K) (hA : A.Exact) (compat : ℕ) {m : ℕ} {lo hi : K}
    (hstep : ((m + 2 : ℕ) : K) / 10 ^ 6 < hi - lo)
    (hgrid : ∀ k : Fin (m + 3), Spec.Six (Spec.grid (m + 2) lo hi k)) (S : Fin (m + 3) → Fin 3 → K)
    (hS : ∀ k i, Spec.Six (S k i)) {r : ℕ} (hr : 0 < r) (F : ℕ → ℕ → ℕ → Fin 3 → K)
    (hF : ∀ i j k ch, Spec.Six (F i j k ch)) :
    ∃ t ns, writeCsp1d3d (Spec.rowMajor fun k i => Flt.fin (S k i)) (m + 3) (.fin lo) (.fin hi)
        (Spec.cubeOf (r + 1) (r + 1) (r + 1) fun i j k => Spec.fins (F i j k)) (r + 1, r + 1, r + 1)
        = .ok t ∧
      readCsp t = .ok ns ∧
      ∀ pairs : List ((Fin 3 → K) × Fin (r + 1) × Fin (r + 1) × Fin (r + 1)),
        (∀ p ∈ pairs, ∀ i : Fin 3,
          (∃ k ≤ 2 * m + 5, p.1 i = Spec.grid (2 * m + 5) lo hi k) ∧
          Spec.OnCurve (m := m + 2) lo hi (fun k => S k i) (p.1 i)
            (((![p.2.1, p.2.2.1, p.2.2.2] i : Fin (r + 1)) : ℕ) / (r : K))) →
        processList A compat ns (pixelValues (pairs.map Prod.fst)) 3
          = .ok (pixelValues (pairs.map fun p => F p.2.1 p.2.2.1 p.2.2.2)) := by
  obtain ⟨t, pre, X, Y, T, h1, h2, h3, h4, hmono, hT, h5⟩ :=
    csp1d3d_nodes A hA compat hstep S (r + 1) (by omega) fun i j k ch => .fin (F i j k ch)
  refine ⟨t, _, h1, h2, fun pairs hp => ?_⟩
  have hX : ∀ k : Fin (m + 3), X k = Spec.grid (m + 2) lo hi k := fun k => (h3 k).2 (hgrid k)
  have hY : ∀ i k, Y i k = S k i := fun i k => (h4 i k).2 (hS k i)
  have hM : (((m + 2 : ℕ) : K)) ≠ 0 := Nat.cast_ne_zero.mpr (by omega)
  have h0 : X 0 = lo := by
    rw [hX]
    simp [Spec.grid]
  have hl : X (Fin.last (m + 2)) = hi := by
    rw [hX]
    simp only [Spec.grid, Fin.val_last]
    field_simp
    ring
  have hlt : lo < hi := by
    rw [← h0, ← hl]
    exact hmono (by simp [Fin.lt_def])
  have := h5 (pairs.map fun p => (p.1, fun i => (((![p.2.1, p.2.2.1, p.2.2.2] i : Fin (r + 1)) : ℕ) / (r : K))))
    (by
      intro q hq i
      obtain ⟨p, hp', rfl⟩ := List.mem_map.mp hq
      obtain ⟨⟨g, hg, e⟩, k, o1, o2, o3⟩ := hp p hp' i
      have hon : Spec.OnPolyline (m := m + 2) X (Y i) (p.1 i)
          (((![p.2.1, p.2.2.1, p.2.2.2] i : Fin (r + 1)) : ℕ) / (r : K)) := by
        refine ⟨k, ?_, ?_, ?_⟩
        · rw [hX]; exact o1
        · rw [hX]; exact o2
        · rw [hX, hX, hY, hY]; exact o3
      dsimp only
      have ht := hT i ⟨g, by omega⟩
      rw [h0, hl] at ht ⊢
      rw [e] at hon ⊢
      rw [onPolyline_unique hmono hon ht]
      exact onCurve_grid hlt (T i) ⟨g, by omega⟩)
  rw [List.map_map, List.map_map] at this
  refine this.trans ?_
  rw [processList_one A hA compat 3 _ rfl]
  have out := lut3d_out A hA compat hr (shapedCube (r + 1) fun i j k ch => .fin (F i j k ch)) (.str "trilinear")
    (.inl rfl) _ ⟨rfl, rfl, rfl, rfl, rfl⟩ (fun i j k => F i j k)
    ⟨⟨[3], rfl⟩, by
      show Spec.cube _ = _
      simp only [back6_six (hF _ _ _ _)]⟩ (pairs.map Prod.snd)
  rw [List.map_map, List.map_map] at out
  refine Eq.trans (congrArg _ (congrArg pixelValues (List.map_congr_left fun p _ => ?_))) out
  funext i
  fin_cases i <;> rfl

/-- A shaper of three entries in front of an inverting cube of side two. -/
def shapedText : Py Txt :=
  writeCsp1d3d (Spec.rowMajor ![![.fin 0, .fin 0, .fin 0], ![.fin (5 / 2), .fin 1, .fin 0],
      ![(.fin 0 : Flt ℚ), .fin 1, .fin (5 / 2)]]) 3 (.fin 0) (.fin 2)
    (Spec.cubeOf 2 2 2 fun r g b => Spec.fins ![1 - (r : ℚ), 1 - g, 1 - b]) (2, 2, 2)

/-- What the text makes of a colour. -/
def shapedAt (text : Py Txt) (p : Fin 3 → ℚ) : Py (List (Flt ℚ)) := do
  let t ← text
  let ns ← readCsp t
  processList ratArith 2 ns (Spec.fins p) 3

/-- Positions 2/5 and 8/5 of the resampled shaper; blue is shaped to 3/2, beyond the cube. -/
example : shapedAt shapedText ![2 / 5, 2 / 5, 8 / 5] = .ok (Spec.fins ![0, 3 / 5, 0]) := by
  decide +kernel

/-- The hypotheses of `C109_partial` for the shaper and the cube of this text. -/
example : ∃ t ns, shapedText = .ok t ∧ readCsp t = .ok ns ∧
    processList ratArith 2 ns (pixelValues [![2 / 5, 0, 2 / 5]]) 3
      = .ok (pixelValues [![0, 1, 1]]) := by
  obtain ⟨t, ns, h1, h2, h3⟩ := C109_partial (K := ℚ) ratArith (fun _ => rfl) 2 (m := 0) (lo := 0) (hi := 2)
    (by norm_num) (by
      intro k
      refine ⟨k * 1000000, ?_⟩
      simp [Spec.grid]
      ring) ![![0, 0, 0], ![5 / 2, 1, 0], ![0, 1, 5 / 2]] (by
      intro k i
      fin_cases k <;> fin_cases i
      all_goals first
        | (refine ⟨0, ?_⟩; decide +kernel)
        | (refine ⟨1000000, ?_⟩; decide +kernel)
        | (refine ⟨2500000, ?_⟩; decide +kernel)) (r := 1) (by omega) (fun r g b => ![1 - (r : ℚ), 1 - g, 1 - b]) (by
      intro r g b ch
      fin_cases ch
      · exact ⟨(1 - r) * 1000000, by simp; ring⟩
      · exact ⟨(1 - g) * 1000000, by simp; ring⟩
      · exact ⟨(1 - b) * 1000000, by simp; ring⟩)
  refine ⟨t, ns, ?_, h2, ?_⟩
  · rw [← h1]
    decide +kernel
  · have := h3 [(![2 / 5, 0, 2 / 5], 1, 0, 0)] (by
      intro p hp i
      rw [List.mem_singleton] at hp
      subst hp
      fin_cases i
      · exact ⟨⟨1, by norm_num, by norm_num [Spec.grid]⟩, 0, by norm_num [Spec.grid], by norm_num [Spec.grid],
          by norm_num [Spec.grid, Spec.affine]⟩
      · exact ⟨⟨0, by norm_num, by norm_num [Spec.grid]⟩, 0, by norm_num [Spec.grid], by norm_num [Spec.grid],
          by norm_num [Spec.grid, Spec.affine]⟩
      · exact ⟨⟨1, by norm_num, by norm_num [Spec.grid]⟩, 0, by norm_num [Spec.grid], by norm_num [Spec.grid],
          by norm_num [Spec.grid, Spec.affine]⟩)
    convert this using 2
    · decide +kernel
    · decide +kernel

/-- A shaper in front of the identity cube of side two. -/
def identityBehind (n : ℕ) (s : List ℚ) : Py Txt :=
  writeCsp1d3d (s.flatMap fun x => [.fin x, .fin x, .fin x]) n (.fin 0) (.fin 1)
    (Spec.cubeOf 2 2 2 fun r g b => Spec.fins ![(r : ℚ), g, b]) (2, 2, 2)

/-- C109 is false.  A shaper that maps 1/2 to 1 maps it to 4/5 once written and read: its knots
are lost in the resampling.  The values of a shaper of two entries are ignored. -/
theorem C109_false :
    Spec.OnCurve (m := 2) (0 : ℚ) 1 ![0, 1, 0] (1 / 2) 1 ∧
    shapedAt (identityBehind 3 [0, 1, 0]) ![1 / 2, 1 / 2, 1 / 2] = .ok (Spec.fins ![4 / 5, 4 / 5, 4 / 5]) ∧
    Spec.OnCurve (m := 1) (0 : ℚ) 1 ![0, 1 / 2] 1 (1 / 2) ∧
    shapedAt (identityBehind 2 [0, 1 / 2]) ![1, 1, 1] = .ok (Spec.fins ![1, 1, 1]) := by
  refine ⟨⟨0, ?_, ?_, ?_⟩, ?_, ⟨0, ?_, ?_, ?_⟩, ?_⟩
  · norm_num [Spec.grid]
  · norm_num [Spec.grid]
  · norm_num [Spec.grid, Spec.affine]
  · decide +kernel
  · norm_num [Spec.grid]
  · norm_num [Spec.grid]
  · norm_num [Spec.grid, Spec.affine]
  · decide +kernel

end CLF
