import Verif.Props.Registry
import Verif.Props.CspOne
import Verif.Props.Csp
import Verif.Props.Spi

/-!
# Converting transforms to lookup tables and back (C83)
-/

set_option linter.unusedSectionVars false

namespace CLF

variable {K : Type} [Field K] [LinearOrder K] [IsStrictOrderedRing K] [FloorRing K]

/-- The samples of a list that can be evaluated at the grid points. -/
theorem sample1D_rows (A : Arith K) (compat : ℕ) (ns : List (Node K)) (m : ℕ) (lo hi : K)
    (F : Fin (m + 2) → Fin 3 → K)
    (hF : ∀ k : Fin (m + 2), processList A compat ns
      (List.replicate 3 (.fin (Spec.grid (m + 1) lo hi k))) 0 = .ok (Spec.fins (F k))) :
    sample1D A compat ns (m + 2) (.fin lo) (.fin hi) = .ok (Spec.rowMajor fun i ch => .fin (F i ch)) := by
  rw [C58_1d]
  refine ⟨fun k => if h : k < m + 2 then Spec.fins (F ⟨k, h⟩) else [], fun k hk => ?_, ?_⟩
  · simp only [hk, dif_pos]
    exact hF ⟨k, hk⟩
  · unfold Spec.rowMajor
    rw [map_range_ofFn]
    congr 2
    funext i
    simp [Spec.fins]

theorem found_some {ns : List (Node K)} (h : ns ≠ []) : Spec.found ns = some ns := by
  cases ns with
  | nil => exact absurd rfl h
  | cons _ _ => rfl

theorem readSpi1d_ne {t : Txt} {ns : List (Node K)} (h : readSpi1d t = .ok ns) : ns ≠ [] := by
  unfold readSpi1d spi1dForward at h
  obtain ⟨s, _, h⟩ := py_bind_eq_ok.mp h
  obtain ⟨lut, _, h⟩ := py_bind_eq_ok.mp h
  cases h
  simp

/-- C83 for `.spi1d`: a transform that can be evaluated on the grey grid is written to a file
that is read as a list with the same values there, provided the texts of the samples are read
exactly and the range has at most six decimals. -/
theorem C83_spi1d_partial (A : Arith K) (hA : A.Exact) (compat compat' : ℕ) {fmt : Flt K → Txt}
    {back : Flt K → Flt K} (hfmt : Spec.NumText fmt back) (cs : List (LutClass K))
    (hp : cs.Perm (shippedFormats A compat fmt)) (path : Txt)
    (he : Spec.Extension path "spi1d".toList) (ns : List (Node K)) (a : WriteArgs K) {m : ℕ}
    (hn : a.res1d = m + 2) {lo hi : K} (hlo : a.lo = .fin lo) (hhi : a.hi = .fin hi)
    (hlo6 : Spec.Six lo) (hhi6 : Spec.Six hi) (hlt : lo < hi) (F : Fin (m + 2) → Fin 3 → K)
    (hF : ∀ k : Fin (m + 2), processList A compat ns
      (List.replicate 3 (.fin (Spec.grid (m + 1) lo hi k))) 0 = .ok (Spec.fins (F k)))
    (hexact : ∀ k ch, back (.fin (F k ch)) = .fin (F k ch)) :
    ∃ t, registryWrite cs ns path "1D" a = .ok (some (.text t)) ∧
      ∀ files : Txt → Py Txt, files path = .ok t →
        ∃ out, registryRead cs files path {} = .ok (some out) ∧
          ∀ ks : List (Fin (m + 2)),
            processList A compat' out (pixelValues (ks.map fun (k : Fin (m + 2)) _ => Spec.grid (m + 1) lo hi k)) 3
              = .ok (pixelValues (ks.map F)) := by
  obtain ⟨t, out, h1, -, h3, h4⟩ := C53_exact_partial A hA compat' hfmt (.inr rfl) F hexact hlo6 hhi6 hlt
  refine ⟨t, ?_, fun files hf => ⟨out, ?_, fun ks => ?_⟩⟩
  · rw [(C52_write A compat fmt cs hp path _ he ns a).1 rfl, hn, hlo, hhi,
      sample1D_rows A compat ns m lo hi F hF, py_ok_bind, h1]
    rfl
  · rw [(C52_read A compat fmt cs hp path _ he files t hf {}).1 rfl]
    show (readSpi1d t).map Spec.found = _
    rw [h3]
    exact congrArg Except.ok (found_some (readSpi1d_ne h3))
  · have := h4 (ks.map fun (k : Fin (m + 2)) => ((fun _ => Spec.grid (m + 1) lo hi k), F k)) ?_
    · simpa [List.map_map, Function.comp_def] using this
    · intro p hp' i
      obtain ⟨k, _, rfl⟩ := List.mem_map.mp hp'
      have := onCurve_grid hlt (fun r => F r i) k
      have hcol : Spec.column 2 i = i := by fin_cases i <;> rfl
      simp only [hcol]
      exact this

/-- C83 for one-dimensional `.csp` files: the same, provided the samples and the range have at
most six decimals. -/
theorem C83_csp1d_partial (A : Arith K) (hA : A.Exact) (compat compat' : ℕ) (fmt : Flt K → Txt)
    (cs : List (LutClass K)) (hp : cs.Perm (shippedFormats A compat fmt)) (path : Txt)
    (he : Spec.Extension path "csp".toList) (ns : List (Node K)) (a : WriteArgs K) {m : ℕ}
    (hn : a.res1d = m + 2) {lo hi : K} (hlo : a.lo = .fin lo) (hhi : a.hi = .fin hi)
    (hlo6 : Spec.Six lo) (hhi6 : Spec.Six hi) (hlt : lo < hi) (F : Fin (m + 2) → Fin 3 → K)
    (hF : ∀ k : Fin (m + 2), processList A compat ns
      (List.replicate 3 (.fin (Spec.grid (m + 1) lo hi k))) 0 = .ok (Spec.fins (F k)))
    (hexact : ∀ k ch, Spec.Six (F k ch)) :
    ∃ t, registryWrite cs ns path "1D" a = .ok (some (.text t)) ∧
      ∀ files : Txt → Py Txt, files path = .ok t →
        ∃ out, registryRead cs files path {} = .ok (some out) ∧
          ∀ ks : List (Fin (m + 2)),
            processList A compat' out
                (pixelValues (ks.map fun (k : Fin (m + 2)) _ => Spec.grid (m + 1) lo hi k)) 3
              = .ok (pixelValues (ks.map F)) := by
  obtain ⟨t, r, b, h1, h3, h4⟩ := csp1d_curve A hA compat' (.inr rfl) le_rfl F hexact hlo6 hhi6 hlt id
    fun _ => rfl
  refine ⟨t, ?_, fun files hf => ⟨[r, b], ?_, fun ks => ?_⟩⟩
  · rw [(C52_write A compat fmt cs hp path _ he ns a).2.1 rfl, hn, hlo, hhi,
      sample1D_rows A compat ns m lo hi F hF, py_ok_bind, h1]
    rfl
  · rw [(C52_read A compat fmt cs hp path _ he files t hf {}).2.2 rfl]
    show (readCsp t).map Spec.found = _
    rw [h3]
    rfl
  · have := h4 (ks.map fun (k : Fin (m + 2)) => ((fun _ => Spec.grid (m + 1) lo hi k), F k)) ?_
    · simpa [List.map_map, Function.comp_def] using this
    · intro p hp' i
      obtain ⟨k, _, rfl⟩ := List.mem_map.mp hp'
      exact onCurve_grid hlt (fun r => F r i) k

/-- A table on a finite lattice, continued by zero. -/
def continued {n : ℕ} (F : Fin n → Fin n → Fin n → Fin 3 → K) (r g b : ℕ) (ch : Fin 3) : K :=
  if h : r < n ∧ g < n ∧ b < n then F ⟨r, h.1⟩ ⟨g, h.2.1⟩ ⟨b, h.2.2⟩ ch else 0

theorem continued_fin {n : ℕ} (F : Fin n → Fin n → Fin n → Fin 3 → K) (r g b : Fin n) :
    continued F r g b = F r g b := by
  funext ch
  unfold continued
  rw [dif_pos ⟨r.2, g.2, b.2⟩]

theorem continued_prop {n : ℕ} {F : Fin n → Fin n → Fin n → Fin 3 → K} {P : K → Prop} (h0 : P 0)
    (h : ∀ r g b ch, P (F r g b ch)) (r g b : ℕ) (ch : Fin 3) : P (continued F r g b ch) := by
  unfold continued
  split
  · exact h _ _ _ _
  · exact h0

/-- The colours of a list at the lattice points over [lo, hi]. -/
def Spec.LatticeValues (A : Arith K) (compat : ℕ) (ns : List (Node K)) {m : ℕ} (lo hi : K)
    (F : Fin (m + 1) → Fin (m + 1) → Fin (m + 1) → Fin 3 → K) : Prop :=
  ∀ r g b : Fin (m + 1), processList A compat ns
    [.fin (Spec.grid m lo hi r), .fin (Spec.grid m lo hi g), .fin (Spec.grid m lo hi b)] 0
      = .ok (Spec.fins (F r g b))

/-- The lattice points over [lo, hi]. -/
def Spec.latticePoint {m : ℕ} (lo hi : K) (p : Fin (m + 1) × Fin (m + 1) × Fin (m + 1)) : Fin 3 → K :=
  ![Spec.grid m lo hi p.1, Spec.grid m lo hi p.2.1, Spec.grid m lo hi p.2.2]

/-- The samples of a list that can be evaluated at the lattice points. -/
theorem sample3D_cube (A : Arith K) (compat : ℕ) (ns : List (Node K)) (m : ℕ) (lo hi : K)
    (F : Fin (m + 2) → Fin (m + 2) → Fin (m + 2) → Fin 3 → K)
    (hF : Spec.LatticeValues A compat ns lo hi F) :
    sample3D A compat ns (m + 2, m + 2, m + 2) (.fin lo) (.fin hi)
      = .ok (Spec.cubeOf (m + 2) (m + 2) (m + 2) fun r g b => Spec.fins (continued F r g b)) :=
  C58_3d_partial A compat ns m m lo hi _ fun r hr g hg b hb => by
    have := hF ⟨r, hr⟩ ⟨g, hg⟩ ⟨b, hb⟩
    rw [← continued_fin F] at this
    exact this

/-- C83 for `.csp` cubes: the values at all lattice points. -/
theorem C83_csp3d_partial (A : Arith K) (hA : A.Exact) (compat compat' : ℕ) (fmt : Flt K → Txt)
    (cs : List (LutClass K)) (hp : cs.Perm (shippedFormats A compat fmt)) (path : Txt)
    (he : Spec.Extension path "csp".toList) (ns : List (Node K)) (a : WriteArgs K) {m : ℕ}
    (hn : a.res3d = m + 2) {lo hi : K} (hlo : a.lo = .fin lo) (hhi : a.hi = .fin hi)
    (hlo6 : Spec.Six lo) (hhi6 : Spec.Six hi) (hlt : lo < hi)
    (F : Fin (m + 2) → Fin (m + 2) → Fin (m + 2) → Fin 3 → K)
    (hF : Spec.LatticeValues A compat ns lo hi F) (hexact : ∀ r g b ch, Spec.Six (F r g b ch)) :
    ∃ t, registryWrite cs ns path "3D" a = .ok (some (.text t)) ∧
      ∀ files : Txt → Py Txt, files path = .ok t →
        ∃ out, registryRead cs files path {} = .ok (some out) ∧
          ∀ points : List (Fin (m + 2) × Fin (m + 2) × Fin (m + 2)),
            processList A compat' out (pixelValues (points.map (Spec.latticePoint lo hi))) 3
            = .ok (pixelValues (points.map fun p => F p.1 p.2.1 p.2.2)) := by
  obtain ⟨t, r, b, h1, h3, h4⟩ := csp3d_lattice A hA compat' hlo6 hhi6 hlt (m := m + 1) (by omega)
    (continued F) (continued_prop ⟨0, by simp⟩ hexact)
  refine ⟨t, ?_, fun files hf => ⟨[r, b], ?_, fun points => ?_⟩⟩
  · rw [(C52_write A compat fmt cs hp path _ he ns a).2.2.2.2.1 rfl, hn, hlo, hhi,
      sample3D_cube A compat ns m lo hi F hF, py_ok_bind, h1]
    rfl
  · rw [(C52_read A compat fmt cs hp path _ he files t hf {}).2.2 rfl]
    show (readCsp t).map Spec.found = _
    rw [h3]
    rfl
  · have := h4 points
    simp only [continued_fin] at this
    exact this

theorem nested_cubeOf (n : ℕ) (F : Fin n → Fin n → Fin n → Fin 3 → K) :
    (Spec.cubeOf n n n fun r g b => Spec.fins (continued F r g b))
      = Spec.nested fun (r g b : Fin n) ch => Flt.fin (F r g b ch) := by
  unfold Spec.cubeOf Spec.nested
  simp only [map_range_ofFn, continued_fin]
  rfl

/-- C83 for `.spi3d`, whatever the range: what comes back are the samples, at the lattice
points of the *unit* cube. -/
theorem C83_spi3d_actual_partial (A : Arith K) (hA : A.Exact) (compat compat' : ℕ) {fmt : Flt K → Txt}
    {back : Flt K → Flt K} (hfmt : Spec.NumText fmt back)
    (cs : List (LutClass K)) (hp : cs.Perm (shippedFormats A compat fmt)) (path : Txt)
    (he : Spec.Extension path "spi3d".toList) (ns : List (Node K)) (a : WriteArgs K) {m : ℕ}
    (hn : a.res3d = m + 2) {lo hi : K} (hlo : a.lo = .fin lo) (hhi : a.hi = .fin hi)
    (F : Fin (m + 2) → Fin (m + 2) → Fin (m + 2) → Fin 3 → K)
    (hF : Spec.LatticeValues A compat ns lo hi F)
    (hexact : ∀ r g b ch, back (.fin (F r g b ch)) = .fin (F r g b ch)) :
    ∃ t, registryWrite cs ns path "3D" a = .ok (some (.text t)) ∧
      ∀ files : Txt → Py Txt, files path = .ok t →
        ∃ out, registryRead cs files path {} = .ok (some out) ∧
          ∀ points : List (Fin (m + 2) × Fin (m + 2) × Fin (m + 2)),
            processList A compat' out (pixelValues (points.map (Spec.latticePoint 0 1))) 3
            = .ok (pixelValues (points.map fun p => F p.1 p.2.1 p.2.2)) := by
  obtain ⟨t, out, h1, h3, h4⟩ := C54_lattice_partial A hA compat' hfmt (m := m + 1) (by omega)
    F hexact (.str "linear") (.inl rfl)
  refine ⟨t, ?_, fun files hf => ⟨out, ?_, fun points => ?_⟩⟩
  · rw [(C52_write A compat fmt cs hp path _ he ns a).2.2.2.1 rfl, hn, hlo, hhi,
      sample3D_cube A compat ns m lo hi F hF, py_ok_bind, nested_cubeOf, h1]
    rfl
  · rw [(C52_read A compat fmt cs hp path _ he files t hf {}).2.1 rfl]
    show (readSpi3d t).map Spec.found = _
    rw [h3]
    refine congrArg Except.ok (found_some ?_)
    unfold readSpi3d at h3
    obtain ⟨s, _, h⟩ := py_bind_eq_ok.mp h3
    cases h
    simp
  · have := h4 points
    have e : Spec.latticePoint (m := m + 1) (0 : K) 1
        = fun p => ![((p.1 : ℕ) : K) / (m + 1 : ℕ), ((p.2.1 : ℕ) : K) / (m + 1 : ℕ),
          ((p.2.2 : ℕ) : K) / (m + 1 : ℕ)] := by
      funext p
      simp only [Spec.latticePoint, grid01]
    rw [e]
    exact this

/-- C83 for `.spi3d` over the unit range. -/
theorem C83_spi3d_partial (A : Arith K) (hA : A.Exact) (compat compat' : ℕ) {fmt : Flt K → Txt}
    {back : Flt K → Flt K} (hfmt : Spec.NumText fmt back)
    (cs : List (LutClass K)) (hp : cs.Perm (shippedFormats A compat fmt)) (path : Txt)
    (he : Spec.Extension path "spi3d".toList) (ns : List (Node K)) (a : WriteArgs K) {m : ℕ}
    (hn : a.res3d = m + 2) (hlo : a.lo = .fin 0) (hhi : a.hi = .fin 1)
    (F : Fin (m + 2) → Fin (m + 2) → Fin (m + 2) → Fin 3 → K)
    (hF : Spec.LatticeValues A compat ns 0 1 F)
    (hexact : ∀ r g b ch, back (.fin (F r g b ch)) = .fin (F r g b ch)) :
    ∃ t, registryWrite cs ns path "3D" a = .ok (some (.text t)) ∧
      ∀ files : Txt → Py Txt, files path = .ok t →
        ∃ out, registryRead cs files path {} = .ok (some out) ∧
          ∀ points : List (Fin (m + 2) × Fin (m + 2) × Fin (m + 2)),
            processList A compat' out (pixelValues (points.map (Spec.latticePoint 0 1))) 3
            = .ok (pixelValues (points.map fun p => F p.1 p.2.1 p.2.2)) :=
  C83_spi3d_actual_partial A hA compat compat' hfmt cs hp path he ns a hn hlo hhi F hF hexact

/-- Arguments for three points per side over [0, hi]. -/
def threePoints (hi : ℚ) : WriteArgs ℚ := ⟨3, 3, 3, 3, 3, .fin 0, .fin hi, (none, .fin 0, .fin 1), (none, .fin 0, .fin 1)⟩

theorem ext_spi3d : Spec.Extension "a.spi3d".toList "spi3d".toList :=
  ⟨"spi3d".toList, ⟨[], ['a'], rfl, .inl rfl, by decide, ⟨'a', by decide⟩, by decide, by decide⟩,
    by decide +kernel⟩

/-- Doubling, sampled at three points per side over [0, 2]. -/
theorem doubler_lattice : Spec.LatticeValues ratArith 0 [doubler] (m := 2) 0 2
    fun r g b => ![2 * ((r : ℕ) : ℚ), 2 * ((g : ℕ) : ℚ), 2 * ((b : ℕ) : ℚ)] := by
  unfold Spec.LatticeValues
  decide +kernel

theorem doubler_exact : ∀ (r g b : Fin 3) (ch : Fin 3), (dec12 (SFlt.ofFlt (.fin
    ((![2 * ((r : ℕ) : ℚ), 2 * ((g : ℕ) : ℚ), 2 * ((b : ℕ) : ℚ)] : Fin 3 → ℚ) ch)))).toFlt
    = .fin ((![2 * ((r : ℕ) : ℚ), 2 * ((g : ℕ) : ℚ), 2 * ((b : ℕ) : ℚ)] : Fin 3 → ℚ) ch) := by
  decide +kernel

/-- C83 is false: `.spi3d` files do not hold the range.  Doubling is sampled over [0, 2] and
written; what is read back maps the sample point 1 to 4. -/
theorem C83_false : ∃ t, registryWrite (shippedFormats ratArith 0 fun x => str12 (.ofFlt x)) [doubler]
      "a.spi3d".toList "3D" (threePoints 2) = .ok (some (.text t)) ∧
    ∀ files : Txt → Py Txt, files "a.spi3d".toList = .ok t →
      ∃ out, registryRead (shippedFormats ratArith 0 fun x => str12 (.ofFlt x)) files "a.spi3d".toList {}
          = .ok (some out) ∧
        processList ratArith 0 out (pixelValues [Spec.latticePoint (m := 2) 0 2 (1, 1, 1)]) 3
          = .ok (pixelValues [![4, 4, 4]]) ∧
        processList ratArith 0 [doubler] (pixelValues [Spec.latticePoint (m := 2) 0 2 (1, 1, 1)]) 3
          = .ok (pixelValues [![2, 2, 2]]) := by
  obtain ⟨t, h1, h2⟩ := C83_spi3d_actual_partial ratArith (fun _ => rfl) 0 0 numText_str12
    (shippedFormats ratArith 0 fun x => str12 (.ofFlt x)) (List.Perm.refl _) "a.spi3d".toList ext_spi3d [doubler]
    (threePoints 2) (m := 1) rfl rfl rfl _ doubler_lattice doubler_exact
  refine ⟨t, h1, fun files hf => ?_⟩
  obtain ⟨out, h3, h4⟩ := h2 files hf
  refine ⟨out, h3, ?_, by decide +kernel⟩
  have := h4 [(2, 2, 2)]
  have e1 : pixelValues [Spec.latticePoint (m := 2) (0 : ℚ) 1 (2, 2, 2)]
      = pixelValues [Spec.latticePoint (m := 2) (0 : ℚ) 2 (1, 1, 1)] := by decide +kernel
  have e2 : pixelValues [(![2 * ((2 : ℕ) : ℚ), 2 * ((2 : ℕ) : ℚ), 2 * ((2 : ℕ) : ℚ)] : Fin 3 → ℚ)]
      = pixelValues [![4, 4, 4]] := by decide +kernel
  rw [← e1, ← e2]
  exact this

/-- The hypotheses of the theorems hold for doubling over [0, 2]: one-dimensional files. -/
example : Spec.Extension "out/a.SPI1D ".toList "spi1d".toList ∧ Spec.Six (0 : ℚ) ∧ Spec.Six (2 : ℚ) ∧
    (∀ k : Fin 3, processList ratArith 0 [doubler] (List.replicate 3 (.fin (Spec.grid 2 0 2 k))) 0
      = .ok (Spec.fins fun _ : Fin 3 => 2 * ((k : ℕ) : ℚ))) ∧
    (∀ k : Fin 3, (dec12 (SFlt.ofFlt (.fin (2 * ((k : ℕ) : ℚ))))).toFlt = .fin (2 * ((k : ℕ) : ℚ))) ∧
    ∀ k : Fin 3, Spec.Six (2 * ((k : ℕ) : ℚ)) :=
  ⟨⟨"SPI1D ".toList, ⟨"out/".toList, ['a'], rfl, .inr ⟨"out".toList, rfl⟩, by decide, ⟨'a', by decide⟩,
    by decide, by decide⟩, by decide +kernel⟩, ⟨0, by simp⟩, ⟨2000000, by norm_num⟩, by decide +kernel,
    by decide +kernel, fun k => ⟨2 * k * 1000000, by push_cast; ring⟩⟩

/-- Three-dimensional `.csp` files. -/
example : ∃ F, Spec.LatticeValues ratArith 0 [doubler] (m := 2) 0 2 F ∧ ∀ r g b ch, Spec.Six (F r g b ch) := by
  refine ⟨_, doubler_lattice, fun r g b ch => ?_⟩
  fin_cases ch
  · exact ⟨2 * r * 1000000, by show 2 * ((r : ℕ) : ℚ) = _; push_cast; ring⟩
  · exact ⟨2 * g * 1000000, by show 2 * ((g : ℕ) : ℚ) = _; push_cast; ring⟩
  · exact ⟨2 * b * 1000000, by show 2 * ((b : ℕ) : ℚ) = _; push_cast; ring⟩

/-- `.spi3d` files over the unit range. -/
example : ∃ F, Spec.LatticeValues ratArith 0 [doubler] (m := 2) 0 1 F ∧ ∀ r g b ch,
    (dec12 (SFlt.ofFlt (.fin (F r g b ch)))).toFlt = .fin (F r g b ch) :=
  ⟨fun r g b => ![((r : ℕ) : ℚ), ((g : ℕ) : ℚ), ((b : ℕ) : ℚ)], by unfold Spec.LatticeValues; decide +kernel,
    by decide +kernel⟩

end CLF
