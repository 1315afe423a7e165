import Verif.Model.Scripts
import Verif.Props.Convert
import Verif.Props.Image

/-!
# The command line scripts (C93–C96, C98, C99)
-/

set_option linter.unusedSectionVars false

namespace CLF

variable {K : Type} [Field K] [LinearOrder K] [IsStrictOrderedRing K] [FloorRing K]

/-- The file cannot be read, or a list is read from it. -/
theorem toLutMain_run (A : Arith K) (compat : ℕ) (formats : List (LutClass K)) (fs : String → Option File)
    (fuel : ℕ) (o : ToLutOptions K) {clf : String} {lut : Txt} (hc : o.clf = some clf) (hl : o.lut = some lut) :
    toLutMain A compat formats fs fuel o = (do
      let a ← toLutArgs o
      let l ← readFile A compat fs fuel false clf
      registryWrite formats l.processes lut (dataFormatOption o) a) := by
  unfold toLutMain
  rw [hc, hl]
  rfl

/-! ## C93: the resolution of 3D tables -/

/-- The text is a 3D table of `n` entries per side. -/
def Spec.TableSize (K : Type) [Field K] [LinearOrder K] [IsStrictOrderedRing K] [FloorRing K]
    (t : Txt) (n : ℕ) : Prop :=
  ∃ (b : Base K) (arr : Arr K), readSpi3d t = .ok [.leaf .lut3d b] ∧ b.array = .ok arr ∧ arr.dims = [n, n, n, 3]

/-- The middle number of the first `--lutResolution1d3d1d`, or 33. -/
def Spec.cubeOption (o : ToLutOptions K) : ℕ := ((o.res1d3d1d.head?.map fun r => r.2.1).getD 33)

theorem resolutionOption_cube (o : ToLutOptions K) : (resolutionOption o).2.1 = Spec.cubeOption o := by
  unfold resolutionOption Spec.cubeOption
  cases o.res1d3d1d <;> rfl

theorem tableSize_unique {t : Txt} {n m : ℕ} (h : Spec.TableSize K t n) (h' : Spec.TableSize K t m) : n = m := by
  obtain ⟨b, a, h1, h2, h3⟩ := h
  obtain ⟨b', a', h1', h2', h3'⟩ := h'
  rw [h1] at h1'
  cases h1'
  rw [h2] at h2'
  cases h2'
  rw [h3] at h3'
  exact (List.cons.inj h3').1

/-- C93: a 3D conversion to `.spi3d` has the side given by `--lutResolution1d3d1d`, and 33
without that option.  Missing: `--lutResolution3d`, see `C93_ignored`. -/
theorem C93_partial (A : Arith K) (compat : ℕ) {fmt : Flt K → Txt} {back : Flt K → Flt K}
    (hfmt : Spec.NumText fmt back) (formats : List (LutClass K))
    (hp : formats.Perm (shippedFormats A compat fmt)) (fs : String → Option File) (fuel : ℕ)
    (o : ToLutOptions K) {clf : String} {lut : Txt} (hc : o.clf = some clf) (hl : o.lut = some lut)
    (he : Spec.Extension lut "spi3d".toList) (h1 : o.generate1d = false) (h3 : o.generate3d = true)
    (hin : o.shaperIn = []) (hout : o.shaperOut = []) {l : PList K}
    (hr : readFile A compat fs fuel false clf = .ok l) {m : ℕ} (hm : Spec.cubeOption o = m + 2) {lo hi : K}
    (hlo : o.lo = .fin lo) (hhi : o.hi = .fin hi)
    (F : Fin (m + 2) → Fin (m + 2) → Fin (m + 2) → Fin 3 → K)
    (hF : Spec.LatticeValues A compat l.processes lo hi F) :
    ∃ t, toLutMain A compat formats fs fuel o = .ok (some (.text t)) ∧
      Spec.TableSize K t (Spec.cubeOption o) := by
  obtain ⟨t, b, arr, g1, g2, g3, g4, -⟩ := C54_table_partial hfmt
    (fun (r g b : Fin (m + 2)) ch => Flt.fin (F r g b ch)) (.str "linear")
  refine ⟨t, ?_, b, arr, g2, g3, by rw [hm]; exact g4⟩
  rw [toLutMain_run A compat formats fs fuel o hc hl]
  have ha : toLutArgs o = .ok ⟨o.res1d, m + 2, (resolutionOption o).1, m + 2, (resolutionOption o).2.2,
      .fin lo, .fin hi, (none, .fin 0, .fin 1), (none, .fin 0, .fin 1)⟩ := by
    unfold toLutArgs shaperOption
    rw [hin, hout, ← hm, ← resolutionOption_cube, hlo, hhi]
    rfl
  have hd : dataFormatOption o = "3D" := by
    unfold dataFormatOption
    rw [h1, h3]
    rfl
  rw [ha, hr, hd]
  simp only [py_ok_bind]
  rw [(C52_write A compat fmt formats hp lut _ he _ _).2.2.2.1 rfl]
  simp only
  rw [sample3D_cube A compat _ m lo hi F hF, py_ok_bind, nested_cubeOf, g1]
  rfl

/-- `--lutResolution3d` never matters. -/
theorem C93_ignored (A : Arith K) (compat : ℕ) (formats : List (LutClass K)) (fs : String → Option File)
    (fuel : ℕ) (o : ToLutOptions K) (n : ℕ) :
    toLutMain A compat formats fs fuel { o with res3d := n } = toLutMain A compat formats fs fuel o := rfl

/-- A file with an empty list. -/
def emptyDoc : String → Option File := fun _ => some (.doc ⟨"ProcessList", [], none, []⟩)

/-- `--generate3d --lutResolution3d 2 -c a.clf -l a.spi3d` -/
def twoPerSide : ToLutOptions ℚ where
  clf := some "a.clf"
  lut := some "a.spi3d".toList
  res3d := 2
  lo := .fin 0
  hi := .fin 1
  generate3d := true

/-- The colours of the empty list. -/
theorem empty_lattice (m : ℕ) : Spec.LatticeValues ratArith 0 [] (m := m) (0 : ℚ) 1
    fun r g b => ![Spec.grid m 0 1 r, Spec.grid m 0 1 g, Spec.grid m 0 1 b] := fun _ _ _ => rfl

/-- C93 is false: asked for two entries per side, the script writes 33. -/
theorem C93_false : ∃ t, toLutMain ratArith 0 (shippedFormats ratArith 0 fun x => str12 (.ofFlt x)) emptyDoc 1
      twoPerSide = .ok (some (.text t)) ∧
    Spec.TableSize ℚ t 33 ∧ ¬ Spec.TableSize ℚ t twoPerSide.res3d := by
  obtain ⟨t, h1, h2⟩ := C93_partial ratArith 0 (numText_str12 (K := ℚ)) _ (List.Perm.refl _) emptyDoc 1
    twoPerSide rfl rfl ext_spi3d rfl rfl rfl rfl (l := {}) rfl (m := 31) rfl rfl rfl _ (empty_lattice _)
  refine ⟨t, h1, h2, fun h => ?_⟩
  have := tableSize_unique h h2
  exact absurd this (by decide)

/-! ## C94: options for other kinds of tables -/

/-- The options that the chosen kind of table depends on agree. -/
def Spec.SameChoice (o o' : ToLutOptions K) : Prop :=
  o'.clf = o.clf ∧ o'.lut = o.lut ∧
  if o.generate1d then o'.generate1d = true ∧ o'.res1d = o.res1d ∧ o'.lo = o.lo ∧ o'.hi = o.hi
  else if o.generate3d then o'.generate1d = false ∧ o'.generate3d = true ∧ o'.lo = o.lo ∧ o'.hi = o.hi ∧
    (o'.res1d3d1d.head?.map fun r => r.2.1) = o.res1d3d1d.head?.map fun r => r.2.1
  else if o.generate1d3d1d then o'.generate1d = false ∧ o'.generate3d = false ∧ o'.generate1d3d1d = true ∧
    o'.res1d3d1d.head? = o.res1d3d1d.head? ∧ o'.shaperIn.head? = o.shaperIn.head? ∧
    o'.shaperOut.head? = o.shaperOut.head?
  else o'.generate3d = false ∧ (o'.generate1d = true ∨ o'.generate1d3d1d = false) ∧ o'.res1d = o.res1d ∧
    o'.lo = o.lo ∧ o'.hi = o.hi

/-- The bounds of the shapers that are given are numbers. -/
def Spec.ShapersOk (o : ToLutOptions K) : Prop :=
  ∀ s, s ∈ o.shaperIn.head? ∨ s ∈ o.shaperOut.head? →
    (∃ x, parseFloat (K := K) s.2.1 = .ok x) ∧ ∃ x, parseFloat (K := K) s.2.2 = .ok x

theorem shaperOption_head {a b : List (Txt × Txt × Txt)} (h : a.head? = b.head?) :
    shaperOption (K := K) a = shaperOption b := by
  cases a <;> cases b <;> simp_all [shaperOption]

theorem shaperOption_ok (a : List (Txt × Txt × Txt))
    (h : ∀ s ∈ a.head?, (∃ x, parseFloat (K := K) s.2.1 = .ok x) ∧ ∃ x, parseFloat (K := K) s.2.2 = .ok x) :
    ∃ s, shaperOption (K := K) a = .ok s := by
  cases a with
  | nil => exact ⟨_, rfl⟩
  | cons s a =>
    obtain ⟨⟨x, hx⟩, y, hy⟩ := h s rfl
    unfold shaperOption floatOfText
    simp only [String.toList_ofList, hx, hy, py_ok_bind]
    exact ⟨_, rfl⟩

/-- The arguments that a style uses agree. -/
def Spec.SameArgs (style : Capability) (a a' : WriteArgs K) : Prop :=
  match style with
  | .write1d => a'.res1d = a.res1d ∧ a'.lo = a.lo ∧ a'.hi = a.hi
  | .write3d => a'.res3d = a.res3d ∧ a'.lo = a.lo ∧ a'.hi = a.hi
  | .write1d3d1d => a'.resIn = a.resIn ∧ a'.resCube = a.resCube ∧ a'.resOut = a.resOut ∧ a'.shIn = a.shIn ∧
      a'.shOut = a.shOut
  | .read => True

theorem formatWrite_args (A : Arith K) (compat : ℕ) (w : Writers K) (ns : List (Node K)) (style : Capability)
    (a a' : WriteArgs K) (h : Spec.SameArgs style a a') :
    formatWrite A compat w ns style a' = formatWrite A compat w ns style a := by
  obtain ⟨_, _, _, _, _, _, _, _, _⟩ := a
  obtain ⟨_, _, _, _, _, _, _, _, _⟩ := a'
  cases style <;> simp only [Spec.SameArgs] at h
  · rfl
  · obtain ⟨rfl, rfl, rfl⟩ := h
    rfl
  · obtain ⟨rfl, rfl, rfl⟩ := h
    rfl
  · obtain ⟨rfl, rfl, rfl, rfl, rfl⟩ := h
    rfl

theorem registryWrite_args (A : Arith K) (compat : ℕ) (fmt : Flt K → Txt) (cs : List (LutClass K))
    (hp : cs.Perm (shippedFormats A compat fmt)) (ns : List (Node K)) (path : Txt) (d : String)
    (a a' : WriteArgs K) (h : Spec.SameArgs (writeStyle d) a a') :
    registryWrite cs ns path d a' = registryWrite cs ns path d a := by
  have hw : ∀ c ∈ cs, c.write ns (writeStyle d) a' = c.write ns (writeStyle d) a := by
    intro c hc
    have := hp.mem_iff.mp hc
    simp only [shippedFormats, List.mem_cons, List.not_mem_nil, or_false] at this
    rcases this with rfl | rfl | rfl | rfl <;> exact formatWrite_args A compat _ ns _ a a' h
  clear hp
  induction cs with
  | nil => rfl
  | cons c cs ih =>
    have ih := ih fun c' hc' => hw c' (List.mem_cons_of_mem _ hc')
    unfold registryWrite
    rw [hw c (List.mem_cons_self ..), ih]

/-- C94: options for other kinds of tables than the one chosen do not matter; 1D is chosen
before 3D before 1D-3D-1D, and 1D if nothing is; of repeated options only the first
matters. -/
theorem C94_choice (A : Arith K) (compat : ℕ) (fmt : Flt K → Txt) (formats : List (LutClass K))
    (hp : formats.Perm (shippedFormats A compat fmt)) (fs : String → Option File) (fuel : ℕ)
    (o o' : ToLutOptions K) (h : Spec.SameChoice o o') (hs : Spec.ShapersOk o) (hs' : Spec.ShapersOk o') :
    toLutMain A compat formats fs fuel o' = toLutMain A compat formats fs fuel o := by
  obtain ⟨sIn, h1⟩ := shaperOption_ok o.shaperIn fun s hm => hs s (.inl hm)
  obtain ⟨sOut, h2⟩ := shaperOption_ok o.shaperOut fun s hm => hs s (.inr hm)
  obtain ⟨sIn', h1'⟩ := shaperOption_ok o'.shaperIn fun s hm => hs' s (.inl hm)
  obtain ⟨sOut', h2'⟩ := shaperOption_ok o'.shaperOut fun s hm => hs' s (.inr hm)
  obtain ⟨hc, hl, h⟩ := h
  have ha : ∃ a, toLutArgs o = .ok a ∧ a = ⟨o.res1d, (resolutionOption o).2.1, (resolutionOption o).1,
      (resolutionOption o).2.1, (resolutionOption o).2.2, o.lo, o.hi, sIn, sOut⟩ := by
    unfold toLutArgs
    rw [h1, h2]
    exact ⟨_, rfl, rfl⟩
  have ha' : ∃ a, toLutArgs o' = .ok a ∧ a = ⟨o'.res1d, (resolutionOption o').2.1, (resolutionOption o').1,
      (resolutionOption o').2.1, (resolutionOption o').2.2, o'.lo, o'.hi, sIn', sOut'⟩ := by
    unfold toLutArgs
    rw [h1', h2']
    exact ⟨_, rfl, rfl⟩
  obtain ⟨a, ha, ea⟩ := ha
  obtain ⟨a', ha', ea'⟩ := ha'
  have key : dataFormatOption o' = dataFormatOption o ∧ Spec.SameArgs (writeStyle (dataFormatOption o)) a a' := by
    unfold dataFormatOption
    by_cases g1 : o.generate1d = true
    · rw [if_pos g1] at h
      obtain ⟨e1, e2, e3, e4⟩ := h
      rw [g1, e1]
      refine ⟨rfl, ?_⟩
      rw [ea, ea', e2, e3, e4]
      exact ⟨rfl, rfl, rfl⟩
    · rw [if_neg g1] at h
      simp only [Bool.not_eq_true] at g1
      by_cases g2 : o.generate3d = true
      · rw [if_pos g2] at h
        obtain ⟨e1, e2, e3, e4, e5⟩ := h
        rw [g1, g2, e1, e2]
        refine ⟨rfl, ?_⟩
        rw [ea, ea', resolutionOption_cube, resolutionOption_cube, e3, e4]
        refine ⟨?_, rfl, rfl⟩
        show Spec.cubeOption o' = Spec.cubeOption o
        unfold Spec.cubeOption
        rw [e5]
      · rw [if_neg g2] at h
        simp only [Bool.not_eq_true] at g2
        by_cases g3 : o.generate1d3d1d = true
        · rw [if_pos g3] at h
          obtain ⟨e1, e2, e3, e4, e5, e6⟩ := h
          rw [g1, g2, g3, e1, e2, e3]
          refine ⟨rfl, ?_⟩
          have er : resolutionOption o' = resolutionOption o := by
            unfold resolutionOption
            revert e4
            cases o'.res1d3d1d <;> cases o.res1d3d1d <;> simp
          have es : sIn' = sIn := by
            have := h1'.symm.trans ((shaperOption_head e5).trans h1)
            cases this
            rfl
          have et : sOut' = sOut := by
            have := h2'.symm.trans ((shaperOption_head e6).trans h2)
            cases this
            rfl
          rw [ea, ea', er, es, et]
          exact ⟨rfl, rfl, rfl, rfl, rfl⟩
        · rw [if_neg g3] at h
          simp only [Bool.not_eq_true] at g3
          obtain ⟨e1, e2, e3, e4, e5⟩ := h
          rw [g1, g2, g3, e1]
          constructor
          · rcases e2 with e2 | e2 <;> rw [e2] <;> simp
          · rw [ea, ea', e3, e4, e5]
            exact ⟨rfl, rfl, rfl⟩
  cases hoc : o.clf with
  | none => unfold toLutMain; rw [hc, hoc, ha, ha']; rfl
  | some clf =>
    cases hol : o.lut with
    | none => unfold toLutMain; rw [hl, hc, hol, hoc, ha, ha']; rfl
    | some lut =>
      rw [toLutMain_run A compat formats fs fuel o' (hc.trans hoc) (hl.trans hol),
        toLutMain_run A compat formats fs fuel o hoc hol, ha, ha', key.1]
      simp only [py_ok_bind]
      congr 1
      funext l
      exact registryWrite_args A compat fmt formats hp _ _ _ _ _ key.2

/-- 3D with further options for 1D. -/
example : Spec.SameChoice (K := ℚ) twoPerSide { twoPerSide with
      res1d := 5
      generate1d3d1d := true
      shaperIn := [("log2".toList, "-8".toList, "4".toList)] } ∧
    Spec.ShapersOk (K := ℚ) { twoPerSide with
      res1d := 5
      generate1d3d1d := true
      shaperIn := [("log2".toList, "-8".toList, "4".toList)] } := by
  refine ⟨by simp [Spec.SameChoice, twoPerSide], ?_⟩
  rintro s (h | h)
  · simp only [twoPerSide, List.head?_cons, Option.mem_def, Option.some.injEq] at h
    subst h
    exact ⟨⟨.fin true 8, by decide +kernel⟩, ⟨.fin false 4, by decide +kernel⟩⟩
  · simp [twoPerSide] at h

/-! ## C95: the file format -/

/-- `--format` never matters. -/
theorem C95_ignored (A : Arith K) (compat : ℕ) (formats : List (LutClass K)) (fs : String → Option File)
    (fuel : ℕ) (o : ToLutOptions K) (f : Option Txt) :
    toLutMain A compat formats fs fuel { o with format := f } = toLutMain A compat formats fs fuel o := rfl

/-- The text is a CTL program: it starts with a comment. -/
def Spec.IsCtl (t : Txt) : Prop := ∃ r, t = '/' :: '/' :: r

/-- The text is an SPI 3D table. -/
def Spec.IsSpi3d (t : Txt) : Prop := ∃ r, t = "SPILUT".toList ++ r

theorem not_spi_ctl {t : Txt} (h : Spec.IsSpi3d t) : ¬ Spec.IsCtl t := by
  rintro ⟨r, hr⟩
  obtain ⟨s, hs⟩ := h
  rw [hs] at hr
  exact absurd (List.cons.inj hr).1 (by decide)

/-- C95 for 3D tables: the format of the file is the one of the extension, so that the format
asked for is written if the path has that extension.  Missing: other extensions, see
`C95_false`. -/
theorem C95_partial (A : Arith K) (compat : ℕ) (fmt : Flt K → Txt) (formats : List (LutClass K))
    (hp : formats.Perm (shippedFormats A compat fmt)) (fs : String → Option File) (fuel : ℕ)
    (o : ToLutOptions K) {lut e : Txt} (_hf : o.format = some e) (hl : o.lut = some lut)
    (he : Spec.Extension lut e) (h1 : o.generate1d = false) (h3 : o.generate3d = true) (w : Written)
    (h : toLutMain A compat formats fs fuel o = .ok (some w)) :
    (e = "ctl".toList → ∃ t, w = .text t ∧ Spec.IsCtl t) ∧
    (e = "spi3d".toList → ∃ t, w = .text t ∧ Spec.IsSpi3d t) := by
  cases hc : o.clf with
  | none =>
    unfold toLutMain at h
    rw [hc] at h
    obtain ⟨a, -, h⟩ := py_bind_eq_ok.mp h
    cases h
  | some clf =>
    rw [toLutMain_run A compat formats fs fuel o hc hl] at h
    obtain ⟨a, -, h⟩ := py_bind_eq_ok.mp h
    obtain ⟨l, -, h⟩ := py_bind_eq_ok.mp h
    have hd : dataFormatOption o = "3D" := by
      unfold dataFormatOption
      rw [h1, h3]
      rfl
    rw [hd] at h
    have hw := C52_write A compat fmt formats hp lut e he l.processes a
    constructor
    · intro h2
      rw [hw.2.2.2.2.2.1 h2] at h
      obtain ⟨s, -, h⟩ := py_bind_eq_ok.mp h
      obtain ⟨t, ht, h⟩ := py_bind_eq_ok.mp h
      cases h
      refine ⟨t, rfl, ?_⟩
      unfold writeCtl3d at ht
      obtain ⟨c, -, ht⟩ := py_bind_eq_ok.mp ht
      have e : "// ".toList = ['/', '/', ' '] := by decide
      rw [e] at ht
      simp only [List.append_assoc, List.cons_append, List.nil_append] at ht
      exact ⟨_, (Except.ok.inj ht).symm⟩
    · intro h2
      rw [hw.2.2.2.1 h2] at h
      obtain ⟨s, -, h⟩ := py_bind_eq_ok.mp h
      obtain ⟨t, ht, h⟩ := py_bind_eq_ok.mp h
      cases h
      refine ⟨t, rfl, ?_⟩
      unfold writeSpi3d at ht
      obtain ⟨c, -, ht⟩ := py_bind_eq_ok.mp ht
      have e : "SPILUT 1.0\n3 3\n".toList = "SPILUT".toList ++ " 1.0\n3 3\n".toList := by decide
      rw [e] at ht
      simp only [List.append_assoc] at ht
      exact ⟨_, (Except.ok.inj ht).symm⟩

theorem ext_ctl : Spec.Extension "a.ctl".toList "ctl".toList :=
  ⟨"ctl".toList, ⟨[], ['a'], rfl, .inl rfl, by decide, ⟨'a', by decide⟩, by decide, by decide⟩,
    by decide +kernel⟩

/-- The options `-f ctl -l a.ctl`, with a table of two entries per side. -/
example : ∃ w, toLutMain ratArith 0 (shippedFormats ratArith 0 fun x => str12 (.ofFlt x)) emptyDoc 1
    { twoPerSide with
      lut := some "a.ctl".toList
      format := some "ctl".toList
      res1d3d1d := [(2, 2, 2)] } = .ok (some w) := by
  rw [toLutMain_run _ _ _ _ _ _ rfl rfl]
  have hr : readFile (K := ℚ) ratArith 0 emptyDoc 1 false "a.clf" = .ok {} := rfl
  rw [hr]
  simp only [py_ok_bind]
  show ∃ w, registryWrite (shippedFormats ratArith 0 fun x => str12 (.ofFlt x)) [] "a.ctl".toList "3D"
    ⟨1024, 2, 2, 2, 2, .fin 0, .fin 1, (none, .fin 0, .fin 1), (none, .fin 0, .fin 1)⟩ = _
  rw [(C52_write ratArith 0 _ _ (List.Perm.refl _) _ _ ext_ctl _ _).2.2.2.2.2.1 rfl]
  simp only
  rw [sample3D_cube ratArith 0 [] 0 0 1 _ (empty_lattice _), py_ok_bind]
  unfold writeCtl3d
  cases h : ctlCube (Spec.cubeOf 2 2 2 fun r g b => Spec.fins (continued (K := ℚ) (n := 2) (fun r g b =>
    ![Spec.grid 1 0 1 r, Spec.grid 1 0 1 g, Spec.grid 1 0 1 b]) r g b)) (2, 2, 2) with
  | error e =>
    have : (ctlCube (Spec.cubeOf 2 2 2 fun r g b => Spec.fins (continued (K := ℚ) (n := 2) (fun r g b =>
      ![Spec.grid 1 0 1 r, Spec.grid 1 0 1 g, Spec.grid 1 0 1 b]) r g b)) (2, 2, 2)).toOption.isSome = true := by
      decide +kernel
    rw [h] at this
    cases this
  | ok c => exact ⟨_, rfl⟩

/-- C95 is false: asked for CTL at `a.spi3d`, the script writes an SPI table. -/
theorem C95_false : ∃ t, toLutMain ratArith 0 (shippedFormats ratArith 0 fun x => str12 (.ofFlt x)) emptyDoc 1
      { twoPerSide with format := some "ctl".toList } = .ok (some (.text t)) ∧
    Spec.IsSpi3d t ∧ ¬ Spec.IsCtl t := by
  obtain ⟨t, h1, -⟩ := C93_false
  obtain ⟨t', h2, h3⟩ := (C95_partial ratArith 0 (fun x => str12 (.ofFlt x)) _ (List.Perm.refl _) emptyDoc 1
    { twoPerSide with format := some "spi3d".toList } rfl rfl ext_spi3d rfl rfl _
      ((C95_ignored ratArith 0 _ emptyDoc 1 twoPerSide _).trans h1)).2 rfl
  cases h2
  exact ⟨t, (C95_ignored ratArith 0 _ emptyDoc 1 twoPerSide _).trans h1, h3, not_spi_ctl h3⟩

/-! ## C96: the help texts -/

theorem listed_offers (cs : List (LutClass K)) (k : Capability) (e : Txt) :
    e ∈ listedFormats cs k ↔ ∃ c ∈ cs, c.offers e k = true := by
  unfold listedFormats LutClass.offers
  simp only [List.mem_flatten, List.mem_map, Bool.and_eq_true, decide_eq_true_eq]
  constructor
  · rintro ⟨_, ⟨c, hc, rfl⟩, he⟩
    rw [List.mem_filter, decide_eq_true_eq] at he
    exact ⟨c, hc, he⟩
  · rintro ⟨c, hc, he⟩
    exact ⟨_, ⟨c, hc, rfl⟩, List.mem_filter.mpr ⟨he.1, by simpa using he.2⟩⟩

/-- C96: the help texts list the documented formats, each once. -/
theorem C96_listed (A : Arith K) (compat : ℕ) (fmt : Flt K → Txt) (cs : List (LutClass K))
    (hp : cs.Perm (shippedFormats A compat fmt)) (k : Capability) :
    (listedFormats cs k).Perm ((Spec.supported.filter fun s => s.2 = k).map fun s => s.1.toList) := by
  have h1 : (listedFormats cs k).Perm (listedFormats (shippedFormats A compat fmt) k) := by
    unfold listedFormats
    exact (hp.map _).flatten
  refine h1.trans ?_
  have : listedFormats (shippedFormats A compat fmt) k
      = (Spec.supported.filter fun s => s.2 = k).map fun s => s.1.toList := by
    cases k <;> rfl
  rw [this]

/-- C96: a file whose extension is listed for writing is written unless an error is raised, and
a file whose extension is not listed is not written. -/
theorem C96_writes (A : Arith K) (compat : ℕ) (fmt : Flt K → Txt) (cs : List (LutClass K))
    (hp : cs.Perm (shippedFormats A compat fmt)) (path e : Txt) (he : Spec.Extension path e)
    (d : String) (hd : d ∈ ["1D", "3D", "1D_3D_1D"]) (ns : List (Node K)) (a : WriteArgs K) :
    e ∈ listedFormats cs (writeStyle d) ↔ registryWrite cs ns path d a ≠ .ok none := by
  constructor
  · intro h
    rw [(C96_listed A compat fmt cs hp _).mem_iff] at h
    have hw := C52_write A compat fmt cs hp path e he ns a
    have key : ∀ {α : Type} (x : Py α) (f : α → Py Txt), (do
        let s ← x
        let t ← f s
        pure (some (Written.text t))) ≠ .ok none := by
      intro α x f h
      obtain ⟨s, -, h⟩ := py_bind_eq_ok.mp h
      obtain ⟨t, -, h⟩ := py_bind_eq_ok.mp h
      cases h
    simp only [List.mem_cons, List.not_mem_nil, or_false] at hd
    rcases hd with rfl | rfl | rfl
    · have h : e = "spi1d".toList ∨ e = "csp".toList ∨ e = "ctl".toList := by
        simpa [Spec.supported, writeStyle] using h
      rcases h with h | h | h
      · rw [hw.1 h]; exact key _ _
      · rw [hw.2.1 h]; exact key _ _
      · rw [hw.2.2.1 h]; exact key _ _
    · have h : e = "spi3d".toList ∨ e = "csp".toList ∨ e = "ctl".toList := by
        simpa [Spec.supported, writeStyle] using h
      rcases h with h | h | h
      · rw [hw.2.2.2.1 h]; exact key _ _
      · rw [hw.2.2.2.2.1 h]; exact key _ _
      · rw [hw.2.2.2.2.2.1 h]; exact key _ _
    · have h : e = "csp".toList ∨ e = "clf".toList := by
        simpa [Spec.supported, writeStyle] using h
      rcases h with h | h
      · rw [hw.2.2.2.2.2.2.1 h]; exact key _ _
      · rw [hw.2.2.2.2.2.2.2 h]
        intro h
        obtain ⟨s, -, h⟩ := py_bind_eq_ok.mp h
        obtain ⟨t, -, h⟩ := py_bind_eq_ok.mp h
        cases h
  · intro h
    by_contra hn
    refine h ((C52_unsupported A compat fmt cs hp path e he).2 d (fun s hs hse => hn ?_) ns a)
    rw [(C96_listed A compat fmt cs hp _).mem_iff]
    exact List.mem_map.mpr ⟨(s, writeStyle d), List.mem_filter.mpr ⟨hs, by simp⟩, hse.symm⟩

/-- C96: a file is opened for reading if and only if its extension is listed. -/
theorem C96_reads (A : Arith K) (compat : ℕ) (fmt : Flt K → Txt) (cs : List (LutClass K))
    (hp : cs.Perm (shippedFormats A compat fmt)) (path e : Txt) (he : Spec.Extension path e)
    (files : Txt → Py Txt) (a : ReadArgs) (x : PyErr) (hx : files path = .error x) :
    (e ∈ listedFormats cs .read → registryRead cs files path a = .error x) ∧
    (e ∉ listedFormats cs .read → registryRead cs files path a = .ok none) := by
  constructor
  · intro h
    rw [(C52_shipped A compat fmt cs hp path).1]
    rw [(C96_listed A compat fmt cs hp _).mem_iff] at h
    have h : e = "spi1d".toList ∨ e = "spi3d".toList ∨ e = "csp".toList := by
      simpa [Spec.supported] using h
    have hext := extensionOf_spec he
    unfold shippedFormats registryRead
    rcases h with h | h | h
    · rw [if_pos ((spi_offers _ _ _ _ _).mpr (.inl ⟨by rw [hext, h], .inl rfl⟩))]
      have hr : (spiClass A compat fmt).read files path a = .error x := by
        simp only [spiClass]
        rw [if_pos (by rw [hext, h]), hx]
        rfl
      rw [hr]
      rfl
    · rw [if_pos ((spi_offers _ _ _ _ _).mpr (.inr ⟨by rw [hext, h], .inl rfl⟩))]
      have hr : (spiClass A compat fmt).read files path a = .error x := by
        simp only [spiClass]
        rw [if_neg (by rw [hext, h]; decide), if_pos (by rw [hext, h]), hx]
        rfl
      rw [hr]
      rfl
    · rw [if_neg (by rw [spi_offers, hext, h]; decide)]
      unfold registryRead
      rw [if_pos ((csp_offers _ _ _ _).mpr (by rw [hext, h]))]
      have hr : (cspClass A compat).read files path a = .error x := by
        simp only [cspClass]
        rw [hx]
        rfl
      rw [hr]
      rfl
  · intro h
    refine (C52_unsupported A compat fmt cs hp path e he).1 (fun s hs hse => h ?_) files a
    rw [(C96_listed A compat fmt cs hp _).mem_iff]
    exact List.mem_map.mpr ⟨(s, .read), List.mem_filter.mpr ⟨hs, by simp⟩, hse.symm⟩

example : "spi3d".toList ∈ listedFormats (shippedFormats ratArith 0 fun x => str12 (.ofFlt x)) .write3d ∧
    "spi3d".toList ∉ listedFormats (shippedFormats ratArith 0 fun x => str12 (.ofFlt x)) .write1d := by
  decide +kernel

/-! ## C98: the number of processes -/

/-- C98: the number of processes is the one asked for, within one and the number of CPUs; all
CPUs if none is asked for. -/
theorem C98_workers (cpus : ℕ) (hc : 1 ≤ cpus) (o : FilterOptions) :
    1 ≤ workersOption cpus o ∧ workersOption cpus o ≤ cpus ∧
    (o.multithreaded = none → workersOption cpus o = cpus) ∧
    ∀ n : ℤ, o.multithreaded = some n →
      (n ≤ 1 → workersOption cpus o = 1) ∧ (cpus ≤ n → workersOption cpus o = cpus) ∧
      (1 ≤ n → n ≤ cpus → workersOption cpus o = n) := by
  unfold workersOption
  refine ⟨by omega, by omega, fun h => ?_, fun n h => ?_⟩
  · rw [h]
    simp only [Option.getD_none]
    omega
  · rw [h]
    simp only [Option.getD_some]
    refine ⟨?_, ?_, ?_⟩ <;> intros <;> omega

example : (1 : ℕ) ≤ 4 ∧ workersOption 4 { multithreaded := some 3 } = 3 := by decide

/-- The output depth is one of the bit depths, or not given. -/
def Spec.DepthOk (o : FilterOptions) : Prop :=
  ∀ d, o.outputBitDepth = some d → d ∈ ["8i", "10i", "12i", "16i", "16f", "32f"]

theorem badDepth_ok {o : FilterOptions} (h : Spec.DepthOk o) : badDepthOption o = false := by
  unfold badDepthOption
  cases hd : o.outputBitDepth with
  | none => rfl
  | some d =>
    have := h d hd
    simp only [List.mem_cons, List.not_mem_nil, or_false] at this
    rcases this with rfl | rfl | rfl | rfl | rfl | rfl <;> decide

theorem badDepth_not {o : FilterOptions} {d : String} (hd : o.outputBitDepth = some d) (h0 : d ≠ "")
    (h : d ∉ ["8i", "10i", "12i", "16i", "16f", "32f"]) : badDepthOption o = true := by
  unfold badDepthOption
  rw [hd]
  simp only [bitDepthValues, List.mem_cons, AVal.str.injEq, List.not_mem_nil, or_false] at h ⊢
  simp [h0, h]

/-- C98: with at least two CPUs and not asked for less than two processes, the script writes
the image whose rows are filtered one after another by the list it reads.  Missing: one process,
see `C98_false`. -/
theorem C98_rows_partial (A : Arith K) (compat : ℕ) (fs : String → Option File) (fuel : ℕ)
    (images : Txt → Option (Image K)) (cpus : ℕ) (schedule : List ℕ) (o : FilterOptions)
    (hd : Spec.DepthOk o) {clf : String} {input output : Txt} (hc : o.clf = some clf) (hi : o.input = some input)
    (ho : o.output = some output) (h2 : 2 ≤ cpus) (hm : ∀ n, o.multithreaded = some n → 2 ≤ n) {img : Image K}
    (himg : images input = some img) (hs : Spec.Sized img) (hw : 0 < img.width * img.channels)
    (hf : Spec.Finished (workersOption cpus o) img.height schedule) :
    filterMain A compat fs fuel images cpus schedule o = (do
      let l ← readFile A compat fs fuel false clf
      Spec.filterSequential A compat img l.processes (o.outputBitDepth.map AVal.str)) := by
  unfold filterMain
  rw [badDepth_ok hd, hc, hi, ho]
  have hw2 : 1 < workersOption cpus o := by
    unfold workersOption
    cases hn : o.multithreaded with
    | none => simp only [Option.getD_none]; omega
    | some n =>
      have := hm n hn
      simp only [Option.getD_some]
      omega
  simp only [Bool.false_eq_true, if_false, himg]
  congr 1
  funext l
  exact C65_parallel A compat img l.processes _ _ hw2 schedule hs hw hf

/-- An image of two rows, two processes. -/
example : Spec.DepthOk { outputBitDepth := some "16f" } ∧ Spec.Sized (onesImage 2) ∧
    Spec.Finished (workersOption 8 { multithreaded := some 2 }) (onesImage 2).height [0, 1, 1, 0] := by
  refine ⟨?_, rfl, by unfold Spec.Finished; decide⟩
  intro d h
  cases h
  decide

/-- A file whose list doubles. -/
def doublerDoc : String → Option File := fun _ =>
  some (.doc ⟨"ProcessList", [], none, [⟨"Matrix", [("inBitDepth", "32f"), ("outBitDepth", "32f")], none,
    [⟨"Array", [("dim", "3 3 3")], some "2 0 0 0 2 0 0 0 2", []⟩]⟩]⟩)

/-- `-i a -o b -c c` -/
def plainFilter : FilterOptions where
  input := some ['a']
  output := some ['b']
  clf := some "c"

/-- C98 is false: on a machine with one CPU, the script loses five of six rows; with two CPUs
it does not. -/
theorem C98_false :
    filterMain ratArith 0 doublerDoc 1 (fun _ => some (onesImage 6)) 1 [] plainFilter
      = .ok (some { onesImage 6 with
          data := .floats (List.replicate 15 (.fin 0) ++ List.replicate 3 (.fin 2)) }) ∧
    filterMain ratArith 0 doublerDoc 1 (fun _ => some (onesImage 6)) 2 (List.replicate 12 0 ++ List.replicate 12 1) plainFilter
      = .ok (some { onesImage 6 with data := .floats (List.replicate 18 (.fin 2)) }) := by
  constructor <;> decide +kernel

/-! ## C99: invalid output depths -/

/-- C99: an output depth that is given, not empty and not a bit depth stops the script before it
reads anything, so nothing is written. -/
theorem C99_stops (A : Arith K) (compat : ℕ) (fs : String → Option File) (fuel : ℕ)
    (images : Txt → Option (Image K)) (cpus : ℕ) (schedule : List ℕ) (o : FilterOptions) {d : String}
    (hd : o.outputBitDepth = some d) (h0 : d ≠ "") (h : d ∉ ["8i", "10i", "12i", "16i", "16f", "32f"]) :
    filterMain A compat fs fuel images cpus schedule o = .ok none := by
  unfold filterMain
  rw [badDepth_not hd h0 h]
  rfl

example : "8" ≠ "" ∧ "8" ∉ ["8i", "10i", "12i", "16i", "16f", "32f"] := by decide

/-- C99 for the empty text: it is ignored.  Missing: other texts, see `C99_stops`. -/
theorem C99_partial (A : Arith K) (compat : ℕ) (fs : String → Option File) (fuel : ℕ)
    (images : Txt → Option (Image K)) (cpus : ℕ) (schedule : List ℕ) (o : FilterOptions) :
    filterMain A compat fs fuel images cpus schedule { o with outputBitDepth := some "" }
      = filterMain A compat fs fuel images cpus schedule { o with outputBitDepth := none } := by
  unfold filterMain
  have h1 : badDepthOption { o with outputBitDepth := some "" } = false := by simp [badDepthOption]
  have h2 : badDepthOption { o with outputBitDepth := none } = false := by simp [badDepthOption]
  rw [h1, h2]
  simp only [Bool.false_eq_true, if_false]
  cases o.clf <;> rfl

/-- C99 is false: the message says that `8` is ignored, but the image that is written without
the option is not written. -/
theorem C99_false :
    filterMain ratArith 0 doublerDoc 1 (fun _ => some (onesImage 2)) 2 [0, 0, 1, 1]
      { plainFilter with outputBitDepth := some "8" } = .ok none ∧
    filterMain ratArith 0 doublerDoc 1 (fun _ => some (onesImage 2)) 2 [0, 0, 1, 1] plainFilter
      = .ok (some { onesImage 2 with data := .floats (List.replicate 6 (.fin 2)) }) :=
  ⟨C99_stops _ _ _ _ _ _ _ _ rfl (by decide) (by decide), by decide +kernel⟩

end CLF
