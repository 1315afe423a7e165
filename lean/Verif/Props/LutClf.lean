import Verif.Model.LutClf
import Verif.Props.CspPrelut

/-! # Property C61 and CLF files of sampled transforms -/

set_option linter.unusedSectionVars false

namespace CLF

variable {K : Type} [Field K] [LinearOrder K] [IsStrictOrderedRing K] [FloorRing K]

theorem affine_lt {a b c d x y : K} (hab : a < b) (hcd : c < d) (h : x < y) :
    Spec.affine a b c d x < Spec.affine a b c d y := by
  have hs : 0 < (d - c) / (b - a) := div_pos (sub_pos.mpr hcd) (sub_pos.mpr hab)
  unfold Spec.affine
  have := mul_lt_mul_of_pos_right (sub_lt_sub_right h a) hs
  linarith

theorem onCurve_polyline {m : ℕ} (lo hi : K) (s : Fin (m + 1) → K) (x y : K) :
    Spec.OnCurve lo hi s x y ↔ Spec.OnPolyline (fun k : Fin (m + 1) => Spec.grid m lo hi k) s x y :=
  Iff.rfl

/-- A polyline with increasing points and values increases. -/
theorem onPolyline_lt {m : ℕ} {X Y : Fin (m + 1) → K} (hX : StrictMono X) (hY : StrictMono Y)
    {x y x' y' : K} (h1 : Spec.OnPolyline X Y x y) (h2 : Spec.OnPolyline X Y x' y') (h : x < x') :
    y < y' := by
  obtain ⟨j, a1, a2, rfl⟩ := h1
  obtain ⟨k, b1, b2, rfl⟩ := h2
  have lx : ∀ j : Fin m, X j.castSucc < X j.succ := fun j => hX Fin.castSucc_lt_succ
  have ly : ∀ j : Fin m, Y j.castSucc < Y j.succ := fun j => hY Fin.castSucc_lt_succ
  rcases lt_trichotomy j k with hjk | rfl | hjk
  · have hle : j.succ ≤ k.castSucc := by rw [Fin.le_def]; simp; omega
    have hX' := hX.monotone hle
    have hY' := hY.monotone hle
    have c1 := affine_between (lx j) (ly j).le a1 a2
    have c2 := affine_between (lx k) (ly k).le b1 b2
    rcases lt_or_eq_of_le a2 with a3 | a3
    · have := affine_lt (lx j) (ly j) a3
      rw [affine_right (lx j).ne] at this
      exact this.trans_le (hY'.trans c2.1)
    · rcases lt_or_eq_of_le b1 with b3 | b3
      · have := affine_lt (lx k) (ly k) b3
        rw [affine_left] at this
        exact c1.2.trans_lt (hY'.trans_lt this)
      · rw [a3, ← b3] at h
        exact c1.2.trans_lt ((hY (hX.lt_iff_lt.mp h)).trans_le c2.1)
  · exact affine_lt (lx j) (ly j) h
  · have hle : k.succ ≤ j.castSucc := by rw [Fin.le_def]; simp; omega
    exact absurd (b2.trans ((hX.monotone hle).trans a1)) (not_le.mpr h)

/-! ### C61 -/

theorem clfInput_some {m : ℕ} (V : Fin (m + 2) → Fin 3 → Flt K) (n : ℕ) (lo hi : Flt K) :
    clfInput (some (Spec.rowMajor V)) n lo hi = inverseIndexMap n 3 (Spec.rowMajor V) lo hi := by
  have hne : Spec.rowMajor V ≠ [] := by
    intro h
    have := congrArg List.length h
    rw [rowMajor_length] at this
    simp at this
  unfold clfInput
  split
  · rename_i h; cases h
  · rename_i h; exact absurd (Option.some.inj h) hne
  · rename_i h; cases h; rfl

/-- C61 is false: what the first stage of the written file computes is the inverse of the
shaper.  It maps shaper(x) to x. -/
theorem C61_inverse_partial (A : Arith K) (hA : A.Exact) (compat : ℕ) {m : ℕ}
    (V : Fin (m + 2) → Fin 3 → K) (hV : ∀ j, StrictMono fun k => V k j) {lo hi : K} (h : lo < hi) :
    ∃ stage, clfInput (some (Spec.rowMajor fun i j => .fin (V i j))) (m + 2) (.fin lo) (.fin hi)
        = .ok stage ∧
      ∀ pairs : List ((Fin 3 → K) × (Fin 3 → K)),
        (∀ p ∈ pairs, ∀ i, Spec.OnCurve lo hi (fun k => V k i) (p.1 i) (p.2 i)) →
        processList A compat stage (pixelValues (pairs.map Prod.snd)) 3
          = .ok (pixelValues (pairs.map Prod.fst)) := by
  obtain ⟨ns, h1, h2⟩ := inverseIndexMap_curve A hA compat (c := 2) (.inr rfl) V hV h
  refine ⟨ns, by rw [clfInput_some]; exact h1, fun pairs hp => h2 pairs fun p hp' i => ?_⟩
  have hcol : Spec.column 2 i = i := by ext; simp [Spec.column]; omega
  rw [hcol]
  exact hp p hp' i

/-- C61, exactly where it holds: for an increasing shaper, the first stage maps a colour x
(within the shaper's outputs) to shaper(x) if and only if x is a fixed point.  Missing:
every other colour. -/
theorem C61_fixed_partial (A : Arith K) (hA : A.Exact) (compat : ℕ) {m : ℕ}
    (V : Fin (m + 2) → Fin 3 → K) (hV : ∀ j, StrictMono fun k => V k j) {lo hi : K} (h : lo < hi) :
    ∃ stage, clfInput (some (Spec.rowMajor fun i j => .fin (V i j))) (m + 2) (.fin lo) (.fin hi)
        = .ok stage ∧
      ∀ x y : Fin 3 → K, (∀ i, Spec.OnCurve lo hi (fun k => V k i) (x i) (y i)) →
        (∀ i, V 0 i ≤ x i ∧ x i ≤ V (Fin.last (m + 1)) i) →
        (processList A compat stage (pixelValues [x]) 3 = .ok (pixelValues [y]) ↔ x = y) := by
  obtain ⟨stage, h1, h2⟩ := C61_inverse_partial A hA compat V hV h
  refine ⟨stage, h1, fun x y hxy hx => ?_⟩
  choose z hz using fun i => onCurve_of_output h (fun k => V k i) (hV i) (hx i).1 (hx i).2
  have hrun := h2 [(z, x)] (by
    intro p hp i
    rw [List.mem_singleton.mp hp]
    exact hz i)
  have hrun : processList A compat stage (pixelValues [x]) 3 = .ok (pixelValues [z]) := hrun
  have hgrid : StrictMono fun k : Fin (m + 1 + 1) => Spec.grid (m + 1) lo hi (k : ℕ) :=
    fun i j hij => grid_lt h hij
  have inj : ∀ u v : Fin 3 → K, pixelValues [u] = pixelValues [v] → u = v := by
    intro u v e
    simp only [pixelValues, List.flatMap_cons, List.flatMap_nil, List.append_nil] at e
    funext i
    exact Flt.fin.inj (congrFun (List.ofFn_injective e) i)
  rw [hrun]
  constructor
  · intro e
    have hzy := inj _ _ (Except.ok.inj e)
    funext i
    have a := hxy i
    have b := hz i
    rw [hzy] at b
    rcases lt_trichotomy (x i) (y i) with hlt | heq | hgt
    · exact absurd hlt (not_lt.mpr (onPolyline_lt hgrid (hV i) a b hlt).le)
    · exact heq
    · exact absurd hgt (not_lt.mpr (onPolyline_lt hgrid (hV i) b a hgt).le)
  · rintro rfl
    have : z = x := by
      funext i
      rcases lt_trichotomy (z i) (x i) with hlt | heq | hgt
      · exact absurd (onPolyline_lt hgrid (hV i) (hz i) (hxy i) hlt) (lt_irrefl _)
      · exact heq
      · exact absurd (onPolyline_lt hgrid (hV i) (hxy i) (hz i) hgt) (lt_irrefl _)
    rw [this]

/-- A curve through 0, 1/4, 1 at 0, 1/2, 1. -/
example : (∀ j, StrictMono fun k => (![![0, 0, 0], ![1 / 4, 1 / 4, 1 / 4], ![1, 1, 1]] :
      Fin 3 → Fin 3 → ℚ) k j) ∧
    Spec.OnCurve 0 1 (fun k => (![![0, 0, 0], ![1 / 4, 1 / 4, 1 / 4], ![1, 1, 1]] :
      Fin 3 → Fin 3 → ℚ) k 0) (1 / 2) (1 / 4) := by
  constructor
  · intro j
    rw [Fin.strictMono_iff_lt_succ]
    fin_cases j <;> intro i <;> fin_cases i <;> simp <;> norm_num
  · exact ⟨1, by norm_num [Spec.grid], by norm_num [Spec.grid],
      by norm_num [Spec.affine, Spec.grid]⟩

/-- C61 is false already for the linear shaper over [0, 2]: the nodes before the LUT3D of
the written list map 1/2 to 1, while the shaper maps 1/2 to 1/4. -/
theorem C61_false : ∃ (s : Sampled ℚ) (sh : Shaper ℚ) (stage : List (Node ℚ)) (cube : Node ℚ),
    sample1D3D1D ratArith 0 [] 3 (2, 2, 2) 3 (some "linear", .fin 0, .fin 2) (none, .fin 0, .fin 1)
      = .ok s ∧
    createShaper ratArith (some "linear") (.fin 0) (.fin 2) = .ok sh ∧
    clfNodes s 3 (2, 2, 2) = .ok (stage ++ [cube]) ∧
    processList ratArith 0 sh.forward (pixelValues [![1 / 2, 1 / 2, 1 / 2]]) 3
      = .ok (pixelValues [![1 / 4, 1 / 4, 1 / 4]]) ∧
    processList ratArith 0 stage (pixelValues [![1 / 2, 1 / 2, 1 / 2]]) 3
      = .ok (pixelValues [![1, 1, 1]]) := by
  have hk : (do
      let s ← sample1D3D1D ratArith 0 [] 3 (2, 2, 2) 3 (some "linear", .fin 0, .fin 2)
        (none, .fin 0, .fin 1)
      let input ← clfInput s.samplesIn 3 s.inLo s.inHi
      let values ← clfCube s.cube (2, 2, 2)
      let output ← clfOutput s.samplesOut
      let w ← processList ratArith 0 input (pixelValues [![1 / 2, 1 / 2, 1 / 2]]) 3
      Except.ok (w, values.length, output.length)) = .ok (pixelValues [![1, 1, 1]], 24, 0) := by
    decide +kernel
  obtain ⟨s, h1, hk⟩ := py_bind_eq_ok.mp hk
  obtain ⟨input, h2, hk⟩ := py_bind_eq_ok.mp hk
  obtain ⟨values, h3, hk⟩ := py_bind_eq_ok.mp hk
  obtain ⟨output, h4, hk⟩ := py_bind_eq_ok.mp hk
  obtain ⟨w, h5, hk⟩ := py_bind_eq_ok.mp hk
  have hk := Except.ok.inj hk
  simp only [Prod.mk.injEq] at hk
  obtain rfl : output = [] := List.length_eq_zero_iff.mp hk.2.2
  refine ⟨s, _, input, clfLut3d (2, 2, 2) values, h1, rfl, ?_, by decide +kernel, by rw [h5, hk.1]⟩
  unfold clfNodes
  rw [h2, py_ok_bind, h3, py_ok_bind, h4, py_ok_bind, List.append_nil]
  rfl

/-! ### C81 -/

theorem clfCube_eq (a b c : ℕ) (F : ℕ → ℕ → ℕ → Fin 3 → Flt K) :
    clfCube (Spec.cubeOf a b c fun r g bl => List.ofFn (F r g bl)) (a, b, c)
      = .ok (Spec.cube fun (r : Fin a) (g : Fin b) (bl : Fin c) => F r g bl) := by
  unfold clfCube
  have h3 : ∀ (v : Fin 3 → Flt K), (List.range 3).mapM (fun ch => pyGet (List.ofFn v) ch)
      = .ok (List.ofFn v) := by
    intro v
    apply range_mapM_ofFn
    intro k
    exact pyGet_ofFn v k k.2
  have hcell : ∀ (r : Fin a) (g : Fin b), (List.range c).mapM (fun bl =>
      (List.range 3).mapM fun ch => do
        let plane ← pyGet (Spec.cubeOf a b c fun r g bl => List.ofFn (F r g bl)) (r : ℕ)
        let row ← pyGet plane (g : ℕ)
        let v ← pyGet row bl
        pyGet v ch) = .ok (List.ofFn fun bl : Fin c => List.ofFn (F r g bl)) := by
    intro r g
    apply range_mapM_ofFn
    intro k
    unfold Spec.cubeOf
    simp only [pyGet_range_map, r.2, g.2, k.2, if_true, py_ok_bind]
    exact h3 _
  have hrow : ∀ r : Fin a, (List.range b).mapM (fun g => (List.range c).mapM fun bl =>
      (List.range 3).mapM fun ch => do
        let plane ← pyGet (Spec.cubeOf a b c fun r g bl => List.ofFn (F r g bl)) (r : ℕ)
        let row ← pyGet plane g
        let v ← pyGet row bl
        pyGet v ch) = .ok (List.ofFn fun g : Fin b => List.ofFn fun bl : Fin c => List.ofFn (F r g bl)) := by
    intro r
    apply range_mapM_ofFn
    intro g
    exact hcell r g
  have hall : (List.range a).mapM (fun r => (List.range b).mapM fun g => (List.range c).mapM fun bl =>
      (List.range 3).mapM fun ch => do
        let plane ← pyGet (Spec.cubeOf a b c fun r g bl => List.ofFn (F r g bl)) r
        let row ← pyGet plane g
        let v ← pyGet row bl
        pyGet v ch) = .ok (List.ofFn fun r : Fin a => List.ofFn fun g : Fin b => List.ofFn fun bl : Fin c =>
          List.ofFn (F r g bl)) := by
    apply range_mapM_ofFn
    intro r
    exact hrow r
  dsimp only
  rw [hall, py_ok_bind, py_pure]
  unfold Spec.cube
  simp only [List.map_ofFn, Function.comp_def]

/-- C81: a transform written as CLF without shapers gives, at every lattice point, the
colour the transform itself gives there. -/
theorem C81_clf (A : Arith K) (hA : A.Exact) (compat compat' : ℕ) (ns : List (Node K)) (nIn m nOut : ℕ)
    (V : ℕ → ℕ → ℕ → Fin 3 → K)
    (hV : ∀ r < m + 2, ∀ g < m + 2, ∀ b < m + 2, processList A compat ns
      [.fin (Spec.grid (m + 1) 0 1 r), .fin (Spec.grid (m + 1) 0 1 g), .fin (Spec.grid (m + 1) 0 1 b)] 0
        = .ok (Spec.fins (V r g b))) (lo hi olo ohi : Flt K) :
    ∃ s out, sample1D3D1D A compat ns nIn (m + 2, m + 2, m + 2) nOut (none, lo, hi) (none, olo, ohi)
        = .ok s ∧
      clfNodes s nIn (m + 2, m + 2, m + 2) = .ok out ∧
      ∀ points : List (Fin (m + 2) × Fin (m + 2) × Fin (m + 2)),
        processList A compat' out (pixelValues (points.map fun p =>
          ![Spec.grid (m + 1) 0 1 p.1, Spec.grid (m + 1) 0 1 p.2.1, Spec.grid (m + 1) 0 1 p.2.2])) 3
        = .ok (pixelValues (points.map fun p => V p.1 p.2.1 p.2.2)) := by
  have hcube := cubeLoop_fin m m m (0 : K) 1 (fun v => processList A compat ns v 0)
    (fun r g b => Spec.fins (V r g b)) hV
  rw [if_pos rfl] at hcube
  have hs : sample1D3D1D A compat ns nIn (m + 2, m + 2, m + 2) nOut (none, lo, hi) (none, olo, ohi)
      = .ok ⟨none, .fin 0, .fin 1, Spec.cubeOf (m + 2) (m + 2) (m + 2) fun r g b => Spec.fins (V r g b),
          none, .fin 0, .fin 1⟩ := by
    unfold sample1D3D1D
    simp only [createShaper, reduceCtorEq, if_false, py_pure, py_ok_bind, shaperSamples, viaShaper]
    have : (fun v => (processList A compat ns v 0 >>= fun w => Except.ok w : Py (List (Flt K))))
        = fun v => processList A compat ns v 0 := by
      funext v
      exact bind_pure _
    rw [this, hcube]
    rfl
  refine ⟨_, [clfLut3d (m + 2, m + 2, m + 2)
    (Spec.cube fun (r g b : Fin (m + 2)) ch => Flt.fin (V r g b ch))], hs, ?_, fun points => ?_⟩
  · unfold clfNodes clfInput clfOutput
    simp only [py_ok_bind]
    rw [show (fun r g b => Spec.fins (V r g b)) = fun r g b => List.ofFn fun ch => Flt.fin (V r g b ch)
      from rfl, clfCube_eq, py_ok_bind, py_pure]
    rfl
  · have := lut3d_lattice A hA compat' (m := m + 1) (by omega)
      (lut3dSetArray (newLut3d float16 float16 (.str "lut3d") (.str "lut3d")) [m + 2, m + 2, m + 2]
        (Spec.cube fun (r g b : Fin (m + 2)) ch => Flt.fin (V r g b ch))).1 (.str "trilinear") (.inl rfl)
      _ ⟨rfl, rfl, rfl, rfl, rfl⟩ rfl (fun r g b ch => V r g b ch) ⟨⟨_, rfl⟩, rfl⟩ points
    simp only [grid01]
    exact this

/-- Doubling, sampled at three points per side. -/
example : ∀ r < 1 + 2, ∀ g < 1 + 2, ∀ b < 1 + 2, processList ratArith 0 [doubler]
      [.fin (Spec.grid (1 + 1) 0 1 r), .fin (Spec.grid (1 + 1) 0 1 g), .fin (Spec.grid (1 + 1) 0 1 b)] 0
    = .ok (Spec.fins ![(r : ℚ), (g : ℚ), (b : ℚ)]) := by
  have h : ∀ r g b : Fin 3, processList ratArith 0 [doubler]
      [.fin (Spec.grid (1 + 1) 0 1 (r : ℕ)), .fin (Spec.grid (1 + 1) 0 1 (g : ℕ)),
        .fin (Spec.grid (1 + 1) 0 1 (b : ℕ))] 0
      = .ok (Spec.fins ![((r : ℕ) : ℚ), ((g : ℕ) : ℚ), ((b : ℕ) : ℚ)]) := by
    decide +kernel
  exact fun r hr g hg b hb => h ⟨r, hr⟩ ⟨g, hg⟩ ⟨b, hb⟩

end CLF
