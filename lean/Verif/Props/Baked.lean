import Verif.Lemmas.Baked
import Verif.Props.ConvertedIeee
import Verif.Props.Registry
import Verif.Props.Spi
import Verif.Props.Scripts
import Verif.Props.RoundedSampling
import Verif.Lemmas.IndexMapText

/-!
# C152: a list baked into a LUT file

A list is sampled, written as an SPI file, converted to a CLF file, and that is read and evaluated, all with rounding.  The result is
compared with the exact meaning of the list at the same pixels.
-/

set_option linter.unusedSectionVars false

namespace CLF

variable {K : Type} [Field K] [LinearOrder K] [IsStrictOrderedRing K] [FloorRing K]

/-! ## Writing -/

theorem ext_of_formats {c d : LutClass K} (h : c.formats = d.formats) : c.extensions = d.extensions := by
  unfold LutClass.extensions
  rw [h]

theorem offers_of_formats {c d : LutClass K} (h : c.formats = d.formats) (e : Txt) (k : Capability) : c.offers e k = d.offers e k := by
  unfold LutClass.offers LutClass.capabilities LutClass.extensions
  rw [h]

theorem spiR_formats (E : Evaluator K) (compat : ℕ) (fmt : Flt K → Txt) : (spiClassR E compat fmt).formats = (spiClass E.library compat fmt).formats := by
  unfold spiClassR; rfl

theorem cspR_formats (E : Evaluator K) (compat : ℕ) : (cspClassR E compat).formats = (cspClass E.library compat).formats := by
  unfold cspClassR; rfl

theorem clfR_formats (E : Evaluator K) (compat : ℕ) : (clfClassR E compat).formats = (clfClass E.library compat).formats := by
  unfold clfClassR; rfl

theorem ctlR_formats (E : Evaluator K) (compat : ℕ) (fmt : Flt K → Txt) : (ctlClassR E compat fmt).formats = (ctlClass E.library compat fmt).formats := by
  unfold ctlClassR; rfl

theorem shippedR_unshared (E : Evaluator K) (compat : ℕ) (fmt : Flt K → Txt) : Spec.Unshared (shippedFormatsR E compat fmt) := by
  have h := shipped_unshared E.library compat fmt
  unfold Spec.Unshared shippedFormats at h
  unfold Spec.Unshared shippedFormatsR
  simp only [List.pairwise_cons, List.mem_cons, List.not_mem_nil, or_false, forall_eq_or_imp, forall_eq,
    false_imp_iff, implies_true, List.Pairwise.nil, and_true] at h ⊢
  simp only [ext_of_formats (spiR_formats E compat fmt), ext_of_formats (cspR_formats E compat), ext_of_formats (clfR_formats E compat),
    ext_of_formats (ctlR_formats E compat fmt)]
  exact h

theorem writeR_one {E : Evaluator K} {compat : ℕ} {fmt : Flt K → Txt} {cs : List (LutClass K)} (hp : cs.Perm (shippedFormatsR E compat fmt))
    (ns : List (Node K)) (path : Txt) (d : String) (a : WriteArgs K) (h : (spiClass E.library compat fmt).offers (extensionOf path) (writeStyle d) = true) :
    registryWrite cs ns path d a = (spiClassR E compat fmt).write ns (writeStyle d) a := by
  have hu := shippedR_unshared E compat fmt
  rw [(C52_order _ _ hp hu path).2]
  exact writeOne (spiClassR E compat fmt) _ (by simp [shippedFormatsR]) hu _ _ _ _ ((offers_of_formats (spiR_formats E compat fmt) _ _).trans h)

theorem writeR_1d {E : Evaluator K} {compat : ℕ} {fmt : Flt K → Txt} {cs : List (LutClass K)} (hp : cs.Perm (shippedFormatsR E compat fmt))
    {path : Txt} (he : Spec.Extension path "spi1d".toList) (ns : List (Node K)) (a : WriteArgs K) :
    registryWrite cs ns path "1D" a = (do
      let s ← sample1DR E compat ns a.res1d a.lo a.hi
      wroteText (writeSpi1d fmt a.lo a.hi s a.res1d 3 3)) := by
  rw [writeR_one hp ns path "1D" a ((spi_offers _ _ _ _ _).mpr (.inl ⟨extensionOf_spec he, .inr rfl⟩))]
  rfl

theorem writeR_3d {E : Evaluator K} {compat : ℕ} {fmt : Flt K → Txt} {cs : List (LutClass K)} (hp : cs.Perm (shippedFormatsR E compat fmt))
    {path : Txt} (he : Spec.Extension path "spi3d".toList) (ns : List (Node K)) (a : WriteArgs K) :
    registryWrite cs ns path "3D" a = (do
      let s ← sample3DR E compat ns (a.res3d, a.res3d, a.res3d) a.lo a.hi
      wroteText (writeSpi3d fmt s (a.res3d, a.res3d, a.res3d))) := by
  rw [writeR_one hp ns path "3D" a ((spi_offers _ _ _ _ _).mpr (.inr ⟨extensionOf_spec he, .inr rfl⟩))]
  rfl

/-- What the script writes. -/
theorem toLut_write (A : Arith K) (compat : ℕ) (cs : List (LutClass K)) (fs : String → Option File) (fuel : ℕ) (o : ToLutOptions K) {clf : String}
    {path : Txt} (ho : Spec.Bakes o clf path) {l : PList K} (hl : readFile A compat fs fuel false clf = .ok l) :
    ∃ a : WriteArgs K, toLutMain A compat cs fs fuel o = registryWrite cs l.processes path (dataFormatOption o) a ∧
      a.res1d = o.res1d ∧ a.res3d = (resolutionOption o).2.1 ∧ a.lo = .fin 0 ∧ a.hi = .fin 1 := by
  refine ⟨{ res1d := o.res1d, res3d := (resolutionOption o).2.1, resIn := (resolutionOption o).1, resCube := (resolutionOption o).2.1,
            resOut := (resolutionOption o).2.2, lo := o.lo, hi := o.hi, shIn := (none, .fin 0, .fin 1), shOut := (none, .fin 0, .fin 1) },
    ?_, rfl, rfl, ho.lo, ho.hi⟩
  unfold toLutMain toLutArgs convertClfToLut
  rw [ho.shapers.1, ho.shapers.2, ho.clf, ho.lut]
  simp only [shaperOption, py_ok_bind, py_pure, hl]

/-! ## One sample -/

/-- A sample, written and read back. -/
theorem sample_text {E : Evaluator K} (hE : E.rounding = ieee) {compat : ℕ} {ns : List (Node K)} {ss : List (Spec.Stage K)}
    (h : Carries E compat false none ns ss) {e l δ C : K} (hb : Spec.Budget ss 1 0 e) (hg : Spec.Gentle (Spec.evalChain ss) l)
    {back : Flt K → Flt K} (hδ : 0 ≤ δ) (hw : Spec.TextsWithin back C δ)
    (hC : ∀ u, Spec.InCube u → ∀ i, |Spec.evalChain ss u i| + Spec.sampleError l e δ ≤ C) {m : ℕ} (hm : 0 < m) (k : Fin 3 → Fin (m + 1)) :
    ∃ w y : Fin 3 → K, processListR E compat ns (Spec.fins fun a => double.near (((k a : ℕ) : K) / m)) 0 = .ok (Spec.fins w) ∧
      (∀ i, back (.fin (w i)) = .fin (y i)) ∧
      ∀ i, |y i - Spec.evalChain ss (fun a => ((k a : ℕ) : K) / m) i| ≤ Spec.sampleError l e δ ∧ |y i| ≤ C := by
  have pos := fun a => unit_position (K := K) hm (show (k a : ℕ) ≤ m by have := (k a).2; omega)
  obtain ⟨w, h1, h2⟩ := list_at hE h hb (fun a => double.near (((k a : ℕ) : K) / m)) fun a => (pos a).2.1
  have hs : Spec.InCube fun a => samplePos (K := K) m (k a) := fun a => ⟨(pos a).2.2.1, (pos a).2.2.2.1⟩
  have hq : Spec.InCube fun a => ((k a : ℕ) : K) / m := fun a => unit_quot hm (k a)
  have hl := hg _ _ hs hq _ fun a => (pos a).2.2.2.2
  have hl0 : 0 ≤ l := by
    have := (abs_nonneg _).trans (hg (fun _ => 0) (fun _ => 0) (fun _ => ⟨le_rfl, zero_le_one⟩) (fun _ => ⟨le_rfl, zero_le_one⟩) 1 (by simp) 0)
    linarith
  have ht : ∀ i, ∃ y, back (.fin (w i)) = .fin y ∧ |y - w i| ≤ δ := fun i => by
    refine hw _ (h2 i).1 ?_
    have e1 := (h2 i).2
    have e2 := hC _ hs i
    unfold Spec.sampleError at e2
    have e3 := abs_sub_abs_le_abs_sub (w i) (Spec.evalChain ss (fun a => samplePos m (k a)) i)
    have : 0 ≤ l / 2 ^ 23 := by positivity
    show |w i| ≤ C
    have e1' : |w i - Spec.evalChain ss (fun a => samplePos m (k a)) i| ≤ e := e1
    linarith
  choose y hy hy2 using ht
  refine ⟨w, y, h1, hy, fun i => ?_⟩
  have key : |y i - Spec.evalChain ss (fun a => ((k a : ℕ) : K) / m) i| ≤ Spec.sampleError l e δ := by
    have e1 : |w i - Spec.evalChain ss (fun a => samplePos m (k a)) i| ≤ e := (h2 i).2
    have e2 := hy2 i
    have e3 := hl i
    have t1 := abs_sub_le (y i) (w i) (Spec.evalChain ss (fun a => ((k a : ℕ) : K) / m) i)
    have t2 := abs_sub_le (w i) (Spec.evalChain ss (fun a => samplePos m (k a)) i) (Spec.evalChain ss (fun a => ((k a : ℕ) : K) / m) i)
    unfold Spec.sampleError
    have e4 : l * (1 / 2 ^ 23) = l / 2 ^ 23 := by ring
    rw [e4] at e3
    linarith
  refine ⟨key, ?_⟩
  have e2 := hC _ hq i
  have e3 := abs_sub_abs_le_abs_sub (y i) (Spec.evalChain ss (fun a => ((k a : ℕ) : K) / m) i)
  linarith

/-! ## Tables -/

theorem six_zero : Spec.Six (0 : K) := ⟨0, by simp⟩

theorem six_one : Spec.Six (1 : K) := ⟨10 ^ 6, by norm_num⟩

theorem near6_six {x : K} {y : Flt K} (hx : Spec.Six x) (hy : Spec.Near6 (.fin x) y) : y = .fin x := by
  cases y with
  | fin y => rw [hy.2 hx]
  | inf _ => exact hy.elim
  | nan => exact hy.elim

/-- Samples near those of a map of slope `l` change little from one to the next. -/
theorem steps_sampled {m : ℕ} (hm : 0 < m) {f : Fin (m + 1) → K} {φ : K → K} {l d : K}
    (hl : ∀ x y, 0 ≤ x → x ≤ 1 → 0 ≤ y → y ≤ 1 → |φ x - φ y| ≤ l * |x - y|) (h : ∀ k : Fin (m + 1), |f k - φ ((k : ℕ) / m)| ≤ d) :
    Spec.StepsWithin f (l / m + 2 * d) := by
  intro k hk
  have hm' : (0 : K) < m := Nat.cast_pos.mpr hm
  have h1 := h ⟨k + 1, by omega⟩
  have h2 := h ⟨k, by omega⟩
  have q1 := unit_quot (K := K) hm ⟨k + 1, by omega⟩
  have q2 := unit_quot (K := K) hm ⟨k, by omega⟩
  have h3 := hl _ _ q1.1 q1.2 q2.1 q2.2
  simp only at h1 h2 h3
  have e : |((k + 1 : ℕ) : K) / m - (k : ℕ) / m| = 1 / m := by
    rw [← sub_div]
    push_cast
    rw [add_sub_cancel_left, abs_of_pos (by positivity)]
  rw [e] at h3
  have e2 : l * (1 / m) = l / m := by ring
  rw [e2] at h3
  generalize φ (((k + 1 : ℕ) : K) / m) = p at *
  generalize φ (((k : ℕ) : K) / m) = q at *
  have t1 := abs_sub_le (f ⟨k + 1, by omega⟩) p (f ⟨k, by omega⟩)
  have t2 := abs_sub_le p q (f ⟨k, by omega⟩)
  rw [abs_sub_comm q] at t2
  linarith

/-- C152 for one-dimensional tables: `convertCLFtoLUT` writes a text, `convertLUTtoCLF` makes a CLF file of it, and the list read from
that does to every channel of every pixel what the list of the first file does to the grey of that value, brought to the unit interval,
up to `bakeError`. -/
theorem C152_spi1d (A : Arith K) (hA : ∀ x, A.f32 x = single.round x) (E : Evaluator K) (hE : E.rounding = ieee)
    (htab : ∀ b, E.table b = half ∨ E.table b = single ∨ E.table b = double) (compat compat' : ℕ) {fmt : Flt K → Txt} {back : Flt K → Flt K}
    (hfmt : Spec.NumText fmt back) (cs : List (LutClass K)) (hp : cs.Perm (shippedFormatsR E compat fmt))
    (fs : String → Option File) (fuel : ℕ) (o : ToLutOptions K) (clf : String) (path : Txt) (ho : Spec.Bakes o clf path)
    (he : Spec.Extension path "spi1d".toList) (hdf : o.generate1d = true) {m : ℕ} (hm0 : 0 < m) (hm : m < 2 ^ 53) (hres : o.res1d = m + 1)
    (list : PList K) (hl : readFile A compat fs fuel false clf = .ok list)
    (ss : List (Spec.Stage K)) (h : Carries E compat false none list.processes ss) (e l δ C : K) (hb : Spec.Budget ss 1 0 e)
    (hg : Spec.Gentle (Spec.evalChain ss) l) (hδ : 0 ≤ δ) (hw : Spec.TextsWithin back C δ)
    (hC : ∀ u, Spec.InCube u → ∀ i, |Spec.evalChain ss u i| + Spec.sampleError l e δ ≤ C) (hC0 : C ≤ 2 ^ 120) :
    ∃ t, toLutMain A compat cs fs fuel o = .ok (some (.text t)) ∧
      ∀ (cs' : List (LutClass K)) (_ : cs'.Perm (shippedFormats A compat' fmt)) (files : Txt → Py Txt) (_ : files path = .ok t) (out : String)
        (im hdom : Bool) (load : String → Py (Option (List (Node K)))),
      ∃ f l', toClfMain compat' cs' files ⟨some path, some out, false, im, hdom⟩ = .ok (some f) ∧
        readContents compat' (readList A compat' load false) f = .ok l' ∧
        ∀ pixels : List (Fin 3 → K), (∀ p ∈ pixels, ∀ i, Spec.IsSingle (p i)) →
        ∃ g : (Fin 3 → K) → Fin 3 → K, processListR E compat' l'.processes (Spec.rgb pixels) 3 = .ok (Spec.rgb (pixels.map g)) ∧
          ∀ p ∈ pixels, ∀ i, |g p i - Spec.evalChain ss (fun _ => Spec.unitClamp (p i)) i|
            ≤ Spec.bakeError m 1 l (Spec.sampleError l e δ) C := by
  obtain ⟨a, ha, ra, -, la, ua⟩ := toLut_write A compat cs fs fuel o ho hl
  choose w y hw1 hw2 hw3 using fun k : Fin (m + 1) => sample_text hE h hb hg hδ hw hC hm0 fun _ => k
  have hd : dataFormatOption o = "1D" := by unfold dataFormatOption; rw [hdf]; rfl
  have hsamp : sample1DR E compat list.processes (m + 1) (.fin 0) (.fin 1) = .ok (Spec.rowMajor fun k j => .fin (w k j)) := by
    unfold sample1DR
    rw [hE]
    refine sampleLoopR_rows (fun k => .fin (double.near ((k : K) / m))) (fun k hk => (unit_position hm0 (by omega)).1) _ fun k => ?_
    exact hw1 k
  obtain ⟨t, lo', hi', h1, h2, h3, h4⟩ := C53_rounded_partial hfmt (.fin (0 : K)) (.fin 1) (fun k j => .fin (w k j)) (k := 3) (by norm_num) le_rfl le_rfl
  rw [near6_six six_zero h2, near6_six six_one h3] at h4
  have hs : (fun (i : Fin (m + 1)) (j : Fin 3) => back (.fin (w i (j.castLE le_rfl)))) = fun i j => .fin (y i j) := by
    funext i j
    exact hw2 i j
  rw [hs] at h4
  refine ⟨t, ?_, fun cs' hp' files hf out im hdom load => ?_⟩
  · rw [ha, hd, writeR_1d hp he, ra, la, ua, hres, hsamp, py_ok_bind, h1]
    rfl
  have hφ : ∀ i : Fin 3, ∀ x y : K, 0 ≤ x → x ≤ 1 → 0 ≤ y → y ≤ 1 →
      |Spec.evalChain ss (fun _ => x) i - Spec.evalChain ss (fun _ => y) i| ≤ l * |x - y| := fun i x y x0 x1 y0 y1 =>
    hg _ _ (fun _ => ⟨x0, x1⟩) (fun _ => ⟨y0, y1⟩) _ (fun _ => le_rfl) i
  obtain ⟨f, l', q1, q2, q3⟩ := C135_spi1d A hA E hE htab compat' compat' fmt cs' hp' files path he t hf (m := m) (c := 2) (.inr rfl) y hm0 hm h4
    (l / m + 2 * Spec.sampleError l e δ) C
    (fun j => steps_sampled hm0 (φ := fun x => Spec.evalChain ss (fun _ => x) j) (hφ j) fun k => (hw3 k j).1) (fun k j => (hw3 k j).2) hC0 out im hdom load
  refine ⟨f, l', q1, q2, fun pixels hpx => ?_⟩
  obtain ⟨g, g1, g2⟩ := q3 pixels hpx
  refine ⟨g, g1, fun p hpm i => ?_⟩
  have hcol : Spec.column 2 i = i := by fin_cases i <;> rfl
  have b1 := (g2 p hpm i).2
  simp only [hcol] at b1
  have b2 := polyline_near (fun k => (hw3 k i).1) (p i)
  have b3 := polyline_samples hm0 (hφ i) (p i)
  have t1 := abs_sub_le (g p i) (Spec.polyline (fun k => y k i) (p i)) (Spec.evalChain ss (fun _ => Spec.unitClamp (p i)) i)
  have t2 := abs_sub_le (Spec.polyline (fun k => y k i) (p i)) (Spec.polyline (fun k : Fin (m + 1) => Spec.evalChain ss (fun _ => ((k : ℕ) : K) / m) i) (p i))
    (Spec.evalChain ss (fun _ => Spec.unitClamp (p i)) i)
  unfold Spec.bakeError
  rw [one_mul, one_mul]
  linarith

/-- C152 for cubes: the list read from the converted file does to every pixel what the list of the first file does to the nearest pixel
of the unit cube, up to `bakeError`. -/
theorem C152_spi3d (A : Arith K) (hA : ∀ x, A.f32 x = single.round x) (E : Evaluator K) (hE : E.rounding = ieee)
    (htab : ∀ b, E.table b = half ∨ E.table b = single ∨ E.table b = double) (compat compat' : ℕ) {fmt : Flt K → Txt} {back : Flt K → Flt K}
    (hfmt : Spec.NumText fmt back) (cs : List (LutClass K)) (hp : cs.Perm (shippedFormatsR E compat fmt))
    (fs : String → Option File) (fuel : ℕ) (o : ToLutOptions K) (clf : String) (path : Txt) (ho : Spec.Bakes o clf path)
    (he : Spec.Extension path "spi3d".toList) (hdf : o.generate1d = false ∧ o.generate3d = true) {m : ℕ} (hm0 : 0 < m) (hm : m < 2 ^ 53)
    (hres : Spec.cubeOption o = m + 1)
    (list : PList K) (hl : readFile A compat fs fuel false clf = .ok list)
    (ss : List (Spec.Stage K)) (h : Carries E compat false none list.processes ss) (e l δ C : K) (hb : Spec.Budget ss 1 0 e)
    (hg : Spec.Gentle (Spec.evalChain ss) l) (hδ : 0 ≤ δ) (hw : Spec.TextsWithin back C δ)
    (hC : ∀ u, Spec.InCube u → ∀ i, |Spec.evalChain ss u i| + Spec.sampleError l e δ ≤ C) (hC0 : C ≤ 2 ^ 120) :
    ∃ t, toLutMain A compat cs fs fuel o = .ok (some (.text t)) ∧
      ∀ (cs' : List (LutClass K)) (_ : cs'.Perm (shippedFormats A compat' fmt)) (files : Txt → Py Txt) (_ : files path = .ok t) (out : String)
        (inv im hdom : Bool) (load : String → Py (Option (List (Node K)))),
      ∃ f l', toClfMain compat' cs' files ⟨some path, some out, inv, im, hdom⟩ = .ok (some f) ∧
        readContents compat' (readList A compat' load false) f = .ok l' ∧
        ∀ pixels : List (Fin 3 → K), (∀ p ∈ pixels, ∀ i, Spec.IsSingle (p i)) →
        ∃ g : (Fin 3 → K) → Fin 3 → K, processListR E compat' l'.processes (Spec.rgb pixels) 3 = .ok (Spec.rgb (pixels.map g)) ∧
          ∀ p ∈ pixels, ∀ i, |g p i - Spec.evalChain ss (fun a => Spec.unitClamp (p a)) i|
            ≤ Spec.bakeError m 3 l (Spec.sampleError l e δ) C := by
  obtain ⟨a, ha, -, ra, la, ua⟩ := toLut_write A compat cs fs fuel o ho hl
  rw [resolutionOption_cube] at ra
  choose w y hw1 hw2 hw3 using fun (r g b : Fin (m + 1)) => sample_text hE h hb hg hδ hw hC hm0 ![r, g, b]
  have hd : dataFormatOption o = "3D" := by unfold dataFormatOption; rw [hdf.1, hdf.2]; rfl
  have hsamp : sample3DR E compat list.processes (m + 1, m + 1, m + 1) (.fin 0) (.fin 1) = .ok (Spec.nested fun r g b ch => .fin (w r g b ch)) := by
    unfold sample3DR
    rw [hE]
    refine cubeLoopR_cube (fun k => .fin (double.near ((k : K) / m))) (fun k hk => (unit_position hm0 (by omega)).1) _ fun r g b => ?_
    have := hw1 r g b
    exact this
  have hvec : ∀ r g b : Fin (m + 1), (fun a => (((![r, g, b] : Fin 3 → Fin (m + 1)) a : ℕ) : K) / m) = ![((r : ℕ) : K) / m, ((g : ℕ) : K) / m, ((b : ℕ) : K) / m] := by
    intro r g b
    funext a
    fin_cases a <;> rfl
  simp only [hvec] at hw3
  have h4 := spi3dParse_lines hfmt fun (r g b : Fin (m + 1)) ch => Flt.fin (w r g b ch)
  simp only [hw2] at h4
  have h1 := writeSpi3d_eq fmt fun (r g b : Fin (m + 1)) ch => Flt.fin (w r g b ch)
  generalize unlines _ = t at h4 h1
  refine ⟨t, ?_, fun cs' hp' files hf out inv im hdom load => ?_⟩
  · rw [ha, hd, writeR_3d hp he, ra, la, ua, hres, hsamp, py_ok_bind, h1]
    rfl
  have hupd : ∀ (i a : Fin 3) (u : Fin 3 → K) (F : K → Fin 3 → K), (∀ z, F z = Function.update u a z) → Spec.InCube u →
      ∀ x y : K, 0 ≤ x → x ≤ 1 → 0 ≤ y → y ≤ 1 → |Spec.evalChain ss (F x) i - Spec.evalChain ss (F y) i| ≤ l * |x - y| := by
    intro i a u F hF hu x y x0 x1 y0 y1
    rw [hF, hF]
    exact gentle_close hg i a u hu x y x0 x1 y0 y1
  obtain ⟨f, l', q1, q2, q3⟩ := C135_spi3d A hA E hE htab compat' compat' fmt cs' hp' files path he t hf (m := m) y hm0 hm h4
    (l / m + 2 * Spec.sampleError l e δ) C
    (fun g b ch => steps_sampled hm0 (φ := fun x => Spec.evalChain ss ![x, ((g : ℕ) : K) / m, ((b : ℕ) : K) / m] ch)
      (hupd ch 0 ![0, (g : ℕ) / m, (b : ℕ) / m] _ (fun z => by funext j; fin_cases j <;> rfl) (cube_vec ⟨le_rfl, zero_le_one⟩ (unit_quot hm0 g) (unit_quot hm0 b)))
      fun k => (hw3 k g b ch).1)
    (fun r b ch => steps_sampled hm0 (φ := fun x => Spec.evalChain ss ![((r : ℕ) : K) / m, x, ((b : ℕ) : K) / m] ch)
      (hupd ch 1 ![(r : ℕ) / m, 0, (b : ℕ) / m] _ (fun z => by funext j; fin_cases j <;> rfl) (cube_vec (unit_quot hm0 r) ⟨le_rfl, zero_le_one⟩ (unit_quot hm0 b)))
      fun k => (hw3 r k b ch).1)
    (fun r g ch => steps_sampled hm0 (φ := fun x => Spec.evalChain ss ![((r : ℕ) : K) / m, ((g : ℕ) : K) / m, x] ch)
      (hupd ch 2 ![(r : ℕ) / m, (g : ℕ) / m, 0] _ (fun z => by funext j; fin_cases j <;> rfl) (cube_vec (unit_quot hm0 r) (unit_quot hm0 g) ⟨le_rfl, zero_le_one⟩))
      fun k => (hw3 r g k ch).1)
    (fun r g b ch => (hw3 r g b ch).2) hC0 out inv im hdom load
  refine ⟨f, l', q1, q2, fun pixels hpx => ?_⟩
  obtain ⟨g, g1, g2⟩ := q3 pixels hpx
  refine ⟨g, g1, fun p hpm i => ?_⟩
  have b1 := (g2 p hpm i).2
  have b2 := polyline_near (fun r => polyline_near (fun g => polyline_near (fun b => (hw3 r g b i).1) (p 2)) (p 1)) (p 0)
  have b3 := cube_samples hm0 hg i p
  have t1 := abs_sub_le (g p i) (Spec.polyline (fun r => Spec.polyline (fun g => Spec.polyline (fun b => y r g b i) (p 2)) (p 1)) (p 0))
    (Spec.evalChain ss (fun a => Spec.unitClamp (p a)) i)
  have t2 := abs_sub_le (Spec.polyline (fun r => Spec.polyline (fun g => Spec.polyline (fun b => y r g b i) (p 2)) (p 1)) (p 0))
    (Spec.polyline (fun r : Fin (m + 1) => Spec.polyline (fun g : Fin (m + 1) => Spec.polyline (fun b : Fin (m + 1) =>
        Spec.evalChain ss ![((r : ℕ) : K) / m, ((g : ℕ) : K) / m, ((b : ℕ) : K) / m] i) (p 2)) (p 1)) (p 0))
    (Spec.evalChain ss (fun a => Spec.unitClamp (p a)) i)
  unfold Spec.bakeError
  linarith

/-! ## Slopes, texts and an example -/

/-- The slope of a chain is at most the product of those of its stages. -/
theorem C152_slope {E : Evaluator K} {compat : ℕ} {g : Bool} {prev : Option Depth} {ns : List (Node K)} {ss : List (Spec.Stage K)}
    (h : Carries E compat g prev ns ss) {B l : K} (hs : Spec.Slope ss B l) : Spec.Gentle (Spec.evalChain ss) l :=
  gentle_of_slope hs h.wf

/-- Texts of twelve digits. -/
theorem C152_texts (C : K) : Spec.TextsWithin (K := K) (fun x => (dec12 (SFlt.ofFlt x)).toFlt) C (C / 10 ^ 11) := by
  intro x _ hx
  obtain ⟨w, h1, h2⟩ := dec12_near x
  refine ⟨w, h1, h2.trans ?_⟩
  have := abs_nonneg x
  rw [div_eq_mul_inv C]
  have e : (1 : K) / 2 / 10 ^ 11 * |x| = |x| / 2 * (10 ^ 11)⁻¹ := by ring
  rw [e]
  exact mul_le_mul_of_nonneg_right (by linarith) (by positivity)

/-- A file with a matrix. -/
def bakedDoc : Xml :=
  .mk "ProcessList" [("id", "x")] none
    [.mk "Matrix" [("inBitDepth", "16f"), ("outBitDepth", "16f")] none
      [.mk "Array" [("dim", "3 3 3")] (some "0.5 0.25 0 0 1 0 0 0 0.75") []]]

def bakedFiles (p : String) : Option File := if p = "a.clf" then some (.doc bakedDoc) else none

def bakedMatrix : Matrix (Fin 3) (Fin 3) ℚ := !![1 / 2, 1 / 4, 0; 0, 1, 0; 0, 0, 3 / 4]

/-- What the theorems ask of the list of the file. -/
def bakedOk : List (Node ℚ) → Bool
  | [.leaf .matrix b] => match b.array with
    | .ok a => (b.attrs.get? "inBitDepth").isSome && (b.attrs.get? "outBitDepth").isSome && (b.attrs.get? "bypass").isNone &&
        decide (a.dims = [3, 3, 3]) && decide (a.values = Spec.rowMajor fun i j => .fin (bakedMatrix i j))
    | .error _ => false
  | _ => false

def bakedOutcome : Bool :=
  match readFile storedArith 0 bakedFiles 1 false "a.clf" with
  | .ok l => bakedOk l.processes
  | .error _ => false

theorem baked_ok (ns : List (Node ℚ)) (h : bakedOk ns = true) :
    ∃ b : Base ℚ, ns = [.leaf .matrix b] ∧ MatrixNode b bakedMatrix ∧ b.attrs.get? "bypass" = none := by
  unfold bakedOk at h
  split at h
  · split at h
    · rename_i _ b _ a ha
      simp only [Bool.and_eq_true, decide_eq_true_eq, Option.isNone_iff_eq_none] at h
      obtain ⟨⟨⟨⟨h1, h2⟩, h3⟩, h4⟩, h5⟩ := h
      exact ⟨b, rfl, ⟨h1, h2, a, [3], ha, h4, h5⟩, h3⟩
    · cases h
  · cases h

theorem baked_read : ∃ (l : PList ℚ) (b : Base ℚ), readFile storedArith 0 bakedFiles 1 false "a.clf" = .ok l ∧ l.processes = [.leaf .matrix b] ∧
    MatrixNode b bakedMatrix ∧ b.attrs.get? "bypass" = none := by
  have h : bakedOutcome = true := by decide +kernel
  unfold bakedOutcome at h
  match hr : readFile storedArith 0 bakedFiles 1 false "a.clf", h with
  | .error _, h => cases h
  | .ok l, h =>
    obtain ⟨b, h1, h2, h3⟩ := baked_ok _ h
    exact ⟨l, b, rfl, h1, h2, h3⟩

/-- `--generate1d -c a.clf -l a.spi1d` and 1024 samples. -/
def bake1d : ToLutOptions ℚ where
  clf := some "a.clf"
  lut := some "a.spi1d".toList
  lo := .fin 0
  hi := .fin 1
  generate1d := true

/-- `--generate3d -c a.clf -l a.spi3d` and 33 samples per side. -/
def bake3d : ToLutOptions ℚ where
  clf := some "a.clf"
  lut := some "a.spi3d".toList
  lo := .fin 0
  hi := .fin 1
  generate3d := true

theorem baked_stage (i : Fin 3) : ∑ j, |bakedMatrix i j| ≤ 1 := by
  fin_cases i <;> norm_num [bakedMatrix, Fin.sum_univ_three, Matrix.cons_val_two, abs_of_pos]

theorem baked_gauge : Spec.Gauge (.linear bakedMatrix fun _ => (0 : ℚ)) 1 1 (20 * ((1 * 1 + 0) / 2 ^ 24 + 2 ^ (-150 : ℤ))) (2 * (1 * 1 + 0) + 1) :=
  .linear baked_stage (fun _ => by simp) (by norm_num)

theorem baked_budget : Spec.Budget [.linear bakedMatrix fun _ => (0 : ℚ)] 1 0 (20 * ((1 * 1 + 0) / 2 ^ 24 + 2 ^ (-150 : ℤ)) + 1 * 0) :=
  .cons baked_gauge .nil

theorem baked_slope : Spec.Slope [.linear bakedMatrix fun _ => (0 : ℚ)] 1 (1 * 1) := .cons baked_gauge .nil

theorem baked_size (u : Fin 3 → ℚ) (hu : Spec.InCube u) (i : Fin 3) :
    |Spec.evalChain [.linear bakedMatrix fun _ => (0 : ℚ)] u i| +
      Spec.sampleError (1 * 1) (20 * ((1 * 1 + 0) / 2 ^ 24 + 2 ^ (-150 : ℤ)) + 1 * 0) (2 / 10 ^ 11) ≤ 2 := by
  have h : |Spec.evalChain [.linear bakedMatrix fun _ => (0 : ℚ)] u i| ≤ 1 := by
    simp only [Spec.evalChain, Spec.Stage.eval, add_zero]
    refine (Finset.abs_sum_le_sum_abs _ _).trans (le_trans (Finset.sum_le_sum fun j _ => ?_) (baked_stage i))
    rw [abs_mul, abs_of_nonneg (hu j).1]
    exact mul_le_of_le_one_right (abs_nonneg _) (hu j).2
  have : Spec.sampleError (1 * 1) (20 * ((1 * 1 + 0) / 2 ^ 24 + 2 ^ (-150 : ℤ)) + 1 * 0) (2 / 10 ^ 11) ≤ (1 : ℚ) := by
    norm_num [Spec.sampleError]
  linarith

/-- The matrix, baked into 1024 samples, is right for greys up to one part in two thousand. -/
example (lib : Arith ℚ) : ∃ t, toLutMain storedArith 0 (shippedFormatsR ⟨ieee, fun _ => single, lib⟩ 0 fun x => str12 (.ofFlt x)) bakedFiles 1 bake1d
      = .ok (some (.text t)) ∧ ∀ load : String → Py (Option (List (Node ℚ))),
    ∃ f l', toClfMain 0 (shippedFormats storedArith 0 fun x => str12 (.ofFlt x)) (fun _ => .ok t) ⟨some "a.spi1d".toList, some "b.clf", false, false, false⟩
        = .ok (some f) ∧
      readContents 0 (readList storedArith 0 load false) f = .ok l' ∧
      ∀ x : ℚ, Spec.IsSingle x → 0 ≤ x → x ≤ 1 → ∃ w : Fin 3 → ℚ,
        processListR ⟨ieee, fun _ => single, lib⟩ 0 l'.processes (Spec.fins fun _ : Fin 3 => x) 3 = .ok (Spec.fins w) ∧
        ∀ i, |w i - bakedMatrix.mulVec (fun _ => x) i| ≤ 1 / 2000 := by
  obtain ⟨l, b, h1, h2, h3, h4⟩ := baked_read
  have hc : Carries ⟨ieee, fun _ => single, lib⟩ 0 false none l.processes [.linear bakedMatrix fun _ => (0 : ℚ)] := by
    rw [h2]
    exact .node (.inl h4) (.matrix h3 (.inr (.inl rfl))) .nil
  obtain ⟨t, q1, q2⟩ := C152_spi1d storedArith (fun _ => rfl) ⟨ieee, fun _ => single, lib⟩ rfl (fun _ => .inr (.inl rfl)) 0 0 numText_str12 _ (List.Perm.refl _)
    bakedFiles 1 bake1d "a.clf" _ ⟨rfl, rfl, rfl, rfl, rfl, rfl⟩ ext_spi1d rfl (m := 1023) (by norm_num) (by norm_num) rfl l h1 _ hc _ _ _ 2 baked_budget
    (C152_slope hc baked_slope) (by norm_num) (C152_texts 2) baked_size (by norm_num)
  refine ⟨t, q1, fun load => ?_⟩
  obtain ⟨f, l', r1, r2, r3⟩ := q2 _ (List.Perm.refl _) (fun _ => .ok t) rfl "b.clf" false false load
  refine ⟨f, l', r1, r2, fun x hx x0 x1 => ?_⟩
  obtain ⟨g, g1, g2⟩ := r3 [fun _ => x] fun p hp i => by rw [List.mem_singleton.mp hp]; exact hx
  refine ⟨g fun _ => x, by simpa [Spec.rgb] using g1, fun i => ?_⟩
  have := g2 (fun _ => x) (by simp) i
  have e : Spec.unitClamp x = x := by unfold Spec.unitClamp; rw [max_eq_right x0, min_eq_right x1]
  have e2 : Spec.evalChain [.linear bakedMatrix fun _ => (0 : ℚ)] (fun _ => x) i = bakedMatrix.mulVec (fun _ => x) i := by
    simp [Spec.evalChain, Spec.Stage.eval, Matrix.mulVec, dotProduct]
  simp only [e, e2] at this
  refine this.trans ?_
  norm_num [Spec.bakeError, Spec.sampleError, Spec.storeError]

/-- The matrix, baked into a cube of 33 samples per side. -/
example (lib : Arith ℚ) : ∃ t, toLutMain storedArith 0 (shippedFormatsR ⟨ieee, fun _ => single, lib⟩ 0 fun x => str12 (.ofFlt x)) bakedFiles 1 bake3d
      = .ok (some (.text t)) ∧ ∀ load : String → Py (Option (List (Node ℚ))),
    ∃ f l', toClfMain 0 (shippedFormats storedArith 0 fun x => str12 (.ofFlt x)) (fun _ => .ok t) ⟨some "a.spi3d".toList, some "b.clf", false, false, false⟩
        = .ok (some f) ∧
      readContents 0 (readList storedArith 0 load false) f = .ok l' ∧
      ∀ p : Fin 3 → ℚ, (∀ i, Spec.IsSingle (p i)) → Spec.InCube p → ∃ w : Fin 3 → ℚ,
        processListR ⟨ieee, fun _ => single, lib⟩ 0 l'.processes (Spec.fins p) 3 = .ok (Spec.fins w) ∧
        ∀ i, |w i - bakedMatrix.mulVec p i| ≤ 1 / 21 := by
  obtain ⟨l, b, h1, h2, h3, h4⟩ := baked_read
  have hc : Carries ⟨ieee, fun _ => single, lib⟩ 0 false none l.processes [.linear bakedMatrix fun _ => (0 : ℚ)] := by
    rw [h2]
    exact .node (.inl h4) (.matrix h3 (.inr (.inl rfl))) .nil
  obtain ⟨t, q1, q2⟩ := C152_spi3d storedArith (fun _ => rfl) ⟨ieee, fun _ => single, lib⟩ rfl (fun _ => .inr (.inl rfl)) 0 0 numText_str12 _ (List.Perm.refl _)
    bakedFiles 1 bake3d "a.clf" _ ⟨rfl, rfl, rfl, rfl, rfl, rfl⟩ ext_spi3d ⟨rfl, rfl⟩ (m := 32) (by norm_num) (by norm_num) rfl l h1 _ hc _ _ _ 2 baked_budget
    (C152_slope hc baked_slope) (by norm_num) (C152_texts 2) baked_size (by norm_num)
  refine ⟨t, q1, fun load => ?_⟩
  obtain ⟨f, l', r1, r2, r3⟩ := q2 _ (List.Perm.refl _) (fun _ => .ok t) rfl "b.clf" false false false load
  refine ⟨f, l', r1, r2, fun p hp hu => ?_⟩
  obtain ⟨g, g1, g2⟩ := r3 [p] fun p' hp' i => by rw [List.mem_singleton.mp hp']; exact hp i
  refine ⟨g p, by simpa [Spec.rgb] using g1, fun i => ?_⟩
  have := g2 p (by simp) i
  have e : (fun a => Spec.unitClamp (p a)) = p := by
    funext a; unfold Spec.unitClamp; rw [max_eq_right (hu a).1, min_eq_right (hu a).2]
  have e2 : Spec.evalChain [.linear bakedMatrix fun _ => (0 : ℚ)] p i = bakedMatrix.mulVec p i := by
    simp [Spec.evalChain, Spec.Stage.eval, Matrix.mulVec, dotProduct]
  simp only [e, e2] at this
  refine this.trans ?_
  norm_num [Spec.bakeError, Spec.sampleError, Spec.storeError]

/-! ## Without rounding -/

theorem listR_exact {A : Arith K} (hA : A.Exact) (compat : ℕ) (t : Base K → Fmt) (ns : List (Node K)) (v : List (Flt K)) (s : ℕ) :
    processListR (Evaluator.exact A t) compat ns v s = processList A compat ns v s := by
  unfold processListR processList
  simp only [exact_f32 hA, nodesR_exact hA]

/-- C152: without rounding, writing is the writing of the exact model. -/
theorem C152_exact {A : Arith K} (hA : A.Exact) (compat : ℕ) (t : Base K → Fmt) (w : Writers K) (ns : List (Node K)) (style : Capability) (a : WriteArgs K) :
    formatWriteR (Evaluator.exact A t) compat w ns style a = formatWrite A compat w ns style a := by
  have h1 : ∀ n lo hi f, sampleLoopR unrounded n lo hi f = sampleLoop (K := K) n lo hi f := by
    intro n lo hi f
    unfold sampleLoopR sampleLoop
    simp only [samplePointR_exact]
  have h3 : ∀ res lo hi f, cubeLoopR unrounded res lo hi f = cubeLoop (K := K) res lo hi f := by
    intro res lo hi f
    unfold cubeLoopR cubeLoop
    simp only [samplePointR_exact]
  have hl := listR_exact hA compat t
  unfold formatWriteR formatWrite sample1DR sample1D sample3DR sample3D sample1D3D1DR sample1D3D1D shaperSamplesR shaperSamples viaShaperR viaShaper
  simp only [hl]
  cases style
  case read => rfl
  all_goals
    simp only [Evaluator.exact, h1, h3]
  rfl

end CLF
