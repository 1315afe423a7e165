import Verif.Props.Scripts
import Verif.Props.ReadParams

/-! # Property C94: the shaper options of `convertCLFtoLUT.py` -/

set_option linter.unusedSectionVars false

namespace CLF

variable {K : Type} [Field K] [LinearOrder K] [IsStrictOrderedRing K] [FloorRing K]

/-- What a shaper option stands for: its first use gives a type and two numbers; without it there is no shaper. -/
def Spec.ShaperOption (os : List (Txt × Txt × Txt)) (ty : Option String) (lo hi : Flt K) : Prop :=
  match os with
  | [] => ty = none ∧ lo = .fin 0 ∧ hi = .fin 1
  | s :: _ => ty = some (String.ofList s.1) ∧ Spec.Number (String.ofList s.2.1) lo ∧ Spec.Number (String.ofList s.2.2) hi

/-- What the sizes option stands for. -/
def Spec.SizesOption (os : List (ℕ × ℕ × ℕ)) (nIn n nOut : ℕ) : Prop :=
  match os with
  | [] => nIn = 1024 ∧ n = 33 ∧ nOut = 2
  | s :: _ => s = (nIn, n, nOut)

theorem floatOfText_number {t : String} {v : Flt K} (h : Spec.Number t v) : floatOfText (some t) = .ok v := by
  obtain ⟨n, h1, rfl⟩ := h
  show (do let v ← parseFloat (K := K) t.toList; pure v.toFlt) = _
  rw [(parseFloat_iff _ n).mpr h1]
  rfl

theorem shaperOption_spec {os : List (Txt × Txt × Txt)} {ty : Option String} {lo hi : Flt K} (h : Spec.ShaperOption os ty lo hi) :
    shaperOption os = .ok (ty, lo, hi) := by
  cases os with
  | nil =>
    obtain ⟨rfl, rfl, rfl⟩ := h
    rfl
  | cons s os =>
    obtain ⟨rfl, h1, h2⟩ := h
    unfold shaperOption
    simp only [floatOfText_number h1, floatOfText_number h2, py_ok_bind]
    rfl

/-- C94: `--generate1d3d1d` samples with the shapers and sizes of the options, each in its place, and writes Cinespace or CLF according
to the path. -/
theorem C94_shapers (A : Arith K) (compat : ℕ) (fmt : Flt K → Txt) (formats : List (LutClass K))
    (hp : formats.Perm (shippedFormats A compat fmt)) (fs : String → Option File) (fuel : ℕ) (o : ToLutOptions K) {clf : String} {lut e : Txt}
    (hc : o.clf = some clf) (hl : o.lut = some lut) (he : Spec.Extension lut e)
    (hg : o.generate1d = false ∧ o.generate3d = false ∧ o.generate1d3d1d = true) {tIn tOut : Option String} {a b c d : Flt K} {nIn n nOut : ℕ}
    (hIn : Spec.ShaperOption o.shaperIn tIn a b) (hOut : Spec.ShaperOption o.shaperOut tOut c d) (hn : Spec.SizesOption o.res1d3d1d nIn n nOut) :
    (e = "csp".toList → toLutMain A compat formats fs fuel o = do
      let l ← readFile A compat fs fuel false clf
      let s ← sample1D3D1D A compat l.processes nIn (n, n, n) nOut (tIn, a, b) (tOut, c, d)
      let t ← writeCsp1d3dOpt s.samplesIn nIn s.inLo s.inHi s.cube (n, n, n)
      pure (some (.text t))) ∧
    (e = "clf".toList → toLutMain A compat formats fs fuel o = do
      let l ← readFile A compat fs fuel false clf
      let s ← sample1D3D1D A compat l.processes nIn (n, n, n) nOut (tIn, a, b) (tOut, c, d)
      let f ← writeClf compat s nIn (n, n, n)
      pure (some (.clf f))) := by
  obtain ⟨g1, g2, g3⟩ := hg
  have hd : dataFormatOption o = "1D_3D_1D" := by
    unfold dataFormatOption
    rw [g1, g2, g3]
    rfl
  have hr : resolutionOption o = (nIn, n, nOut) := by
    unfold resolutionOption
    cases ho : o.res1d3d1d with
    | nil =>
      rw [ho] at hn
      obtain ⟨rfl, rfl, rfl⟩ := hn
      rfl
    | cons s os =>
      rw [ho] at hn
      have : s = (nIn, n, nOut) := hn
      subst this
      rfl
  have ha : toLutArgs o = .ok ⟨o.res1d, n, nIn, n, nOut, o.lo, o.hi, (tIn, a, b), (tOut, c, d)⟩ := by
    unfold toLutArgs
    rw [shaperOption_spec hIn, shaperOption_spec hOut, hr]
    rfl
  rw [toLutMain_run A compat formats fs fuel o hc hl, ha, hd]
  simp only [py_ok_bind]
  constructor
  · intro h
    congr 1
    funext l
    exact (C52_write A compat fmt formats hp lut e he l.processes _).2.2.2.2.2.2.1 h
  · intro h
    congr 1
    funext l
    exact (C52_write A compat fmt formats hp lut e he l.processes _).2.2.2.2.2.2.2 h

/-- `--shaperIn log2 -8 4 --shaperIn linear 0 1`: the first counts. -/
example : Spec.ShaperOption (K := ℚ) [("log2".toList, "-8".toList, "4".toList), ("linear".toList, "0".toList, "1".toList)]
    (some "log2") (.fin (-8)) (.fin 4) :=
  ⟨rfl, ⟨.fin true 8, (parseFloat_iff _ _).mp (by decide +kernel), rfl⟩, ⟨.fin false 4, (parseFloat_iff _ _).mp (by decide +kernel), rfl⟩⟩

/-- `--generate1d3d1d --lutResolution1d3d1d 2 2 2 --shaperIn linear -1 3 -c a.clf -l a.csp` -/
def shapedCsp : ToLutOptions ℚ where
  clf := some "a.clf"
  lut := some "a.csp".toList
  lo := .fin 0
  hi := .fin 1
  generate1d3d1d := true
  res1d3d1d := [(2, 2, 2)]
  shaperIn := [("linear".toList, "-1".toList, "3".toList)]

/-- A whole command line, on a list without nodes. -/
example (fmt : Flt ℚ → Txt) : toLutMain ratArith 0 (shippedFormats ratArith 0 fmt) emptyDoc 1 shapedCsp = (do
      let s ← sample1D3D1D ratArith 0 [] 2 (2, 2, 2) 2 (some "linear", .fin (-1), .fin 3) (none, .fin 0, .fin 1)
      let t ← writeCsp1d3dOpt s.samplesIn 2 s.inLo s.inHi s.cube (2, 2, 2)
      pure (some (.text t))) := by
  have he : Spec.Extension "a.csp".toList "csp".toList :=
    ⟨"csp".toList, ⟨[], ['a'], rfl, .inl rfl, by decide, ⟨'a', by decide⟩, by decide, by decide⟩, by decide +kernel⟩
  rw [(C94_shapers ratArith 0 fmt _ (List.Perm.refl _) emptyDoc 1 shapedCsp rfl rfl he ⟨rfl, rfl, rfl⟩
    (tIn := some "linear") (a := .fin (-1)) (b := .fin 3) (tOut := none) (c := .fin 0) (d := .fin 1) (nIn := 2) (n := 2) (nOut := 2)
    ⟨rfl, ⟨.fin true 1, (parseFloat_iff _ _).mp (by decide +kernel), rfl⟩, ⟨.fin false 3, (parseFloat_iff _ _).mp (by decide +kernel), rfl⟩⟩
    ⟨rfl, rfl, rfl⟩ rfl).1 rfl]
  rfl

end CLF
