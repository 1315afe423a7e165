import Verif.Props.Scripts
import Verif.Props.Precision
import Verif.Props.OcioInverse

/-!
# The converters to CLF, from the file that is read to the file that is written

C97: what `convertLUTtoCLF.py` writes processes colours like the nodes of the LUT file.
C100: what `convertOCIOtoCLF.py` writes processes colours like the transforms of the colour
spaces, sources first.
-/

set_option linter.unusedSectionVars false

namespace CLF

variable {K : Type} [Field K] [LinearOrder K] [IsStrictOrderedRing K] [FloorRing K]

/-! ## Attributes of the list are written as texts -/

/-- The list with its attributes as texts. -/
def Spec.texts (l : PList K) : PList K :=
  { l with attrs := l.attrs.map fun kv => (kv.1, .str kv.2.text) }

theorem writeFile_texts (compat : ℕ) (sc gz : Bool) (l : PList K) :
    (Spec.texts l).writeFile compat sc gz = l.writeFile compat sc gz := by
  unfold PList.writeFile PList.write Spec.texts
  simp only [List.map_map]
  rfl

/-- What is written for a list around storable nodes is read as nodes that process colours
alike. -/
theorem converted_back (A : Arith K) (compat : ℕ) (load : String → Py (Option (List (Node K)))) (l : PList K)
    (h1 : (l.attrs.map Prod.fst).Nodup) (h2 : l.values = []) (h3 : ∀ e ∈ l.elements, Spec.InfoElemOk e)
    (h4 : ∀ n ∈ l.processes, Spec.Storable compat load n ∧ Spec.TextExact A n) (gzip : Bool)
    (f : File) (hf : l.writeFile compat false gzip = .ok f) :
    ∃ l', readContents compat (readList A compat load false) f = .ok l' ∧
      ∀ (values : List (Flt K)) (stride : ℕ), processList A compat l'.processes values stride =
        processList A compat l.processes values stride := by
  rw [← writeFile_texts] at hf
  refine C91_partial A compat load (Spec.texts l) ⟨?_, ?_, h2, h3, fun n hn => (h4 n hn).1⟩
    (fun n hn => (h4 n hn).2) gzip f hf
  · simpa [Spec.texts, Function.comp_def] using h1
  · intro kv hkv
    obtain ⟨a, -, rfl⟩ := List.mem_map.mp hkv
    exact ⟨_, rfl⟩

/-! ## Nodes that are written -/

/-- The node is written, whatever becomes of references. -/
def Spec.IsWritten (compat : ℕ) (n : Node K) : Prop := ∀ flag, ∃ xs, n.write compat flag = .ok xs

theorem writeNodes_exists (compat : ℕ) (flag : Option Bool) (ns : List (Node K))
    (h : ∀ n ∈ ns, Spec.IsWritten compat n) : ∃ xs, writeNodes compat flag ns = .ok xs := by
  induction ns with
  | nil => exact ⟨[], rfl⟩
  | cons n ns ih =>
    obtain ⟨x, hx⟩ := h n (List.mem_cons_self ..) flag
    obtain ⟨y, hy⟩ := ih fun m hm => h m (List.mem_cons_of_mem _ hm)
    exact ⟨x ++ y, by simp only [writeNodes, hx, hy, py_ok_bind, py_pure]⟩

theorem writeFile_exists (compat : ℕ) (l : PList K) (h1 : ∀ e ∈ l.elements, ∃ x, Elem.write compat e = .ok x)
    (h2 : ∀ n ∈ l.processes, Spec.IsWritten compat n) : ∃ f, l.writeFile compat false false = .ok f := by
  obtain ⟨es, he⟩ := py_mapM_exists (Elem.write compat) l.elements h1
  obtain ⟨ns, hn⟩ := writeNodes_exists compat (some false) l.processes h2
  unfold PList.writeFile PList.write
  simp only [he, hn, py_ok_bind, py_pure]
  exact ⟨_, rfl⟩

theorem leaf_writes (compat : ℕ) (k : Kind K) (b : Base K)
    (h : ∀ e ∈ b.elements, ∃ x, Elem.write compat e = .ok x) : Spec.IsWritten compat (.leaf k b) := by
  intro flag
  obtain ⟨es, he⟩ := py_mapM_exists (Elem.write compat) b.elements h
  simp only [Node.write, writeBase, he, py_ok_bind, py_pure]
  exact ⟨_, rfl⟩

/-- A table whose rows have a length is written. -/
theorem array_writes (compat : ℕ) (a : Arr K) (c : ℕ) (hr : a.rawHalfs = false)
    (he : a.floatEncoding = "string") (hi : a.integers = false) (hc : Spec.rowLength a.dims = some c)
    (h0 : 0 < c) : ∃ x, Elem.write compat (.array a) = .ok x := by
  obtain ⟨y, hy⟩ := C48_writes (K := K) compat a.toS c hr he hi hc h0
  exact ⟨y, by simp only [Elem.write, Arr.write, hy]⟩

/-- The range of a SPI file is a node that can be stored. -/
theorem boundedRange_ready (A : Arith K) (compat : ℕ) (load : String → Py (Option (List (Node K))))
    (id : String) (hid : id ≠ "True" ∧ id ≠ "False") (a b c d : Flt K) (ha : Spec.Exact12 a)
    (hb : Spec.Exact12 b) (hc : Spec.Exact12 c) (hd : Spec.Exact12 d) :
    (Spec.Storable compat load (boundedRange id a b c d) ∧
      Spec.TextExact A (boundedRange id a b c d)) ∧ Spec.IsWritten compat (boundedRange id a b c d) := by
  refine ⟨⟨.leaf trivial ?_ (.inr ⟨rfl, ?_, ?_⟩) (.inl rfl) ?_, .leaf trivial ?_ ?_⟩, leaf_writes _ _ _ ?_⟩
  · simp [Spec.AttrsOk, Spec.keysOf, Spec.commonKeys, newBase, float16, hid]
  · simp
  · simp
  · simp [newBase]
  · intro n x h
    have := Dict.mem_of_get? _ _ _ h
    simp only [List.mem_cons, Prod.mk.injEq, List.not_mem_nil, or_false] at this
    rcases this with ⟨-, rfl⟩ | ⟨-, rfl⟩ | ⟨-, rfl⟩ | ⟨-, rfl⟩ <;> assumption
  · simp [newBase]
  · simp [newBase]

theorem exact12_zero : Spec.Exact12 (.fin 0 : Flt K) := ⟨0, 0, by norm_num, by simp⟩

theorem exact12_one : Spec.Exact12 (.fin 1 : Flt K) := ⟨1, 0, by norm_num, by simp⟩

/-- A LUT1D made by the SPI reader can be stored. -/
theorem lut1d_ready (A : Arith K) (compat : ℕ) (load : String → Py (Option (List (Node K)))) (c : ℕ)
    (samples : List (Flt K)) (h0 : 0 < c) (hc : c ∣ samples.length) (b : Base K)
    (hb : lut1dSetArray (newLut1d float16 float16 (.str "lut1d") (.str "lut1d")) c samples = .ok b) :
    (Spec.Storable compat load (.leaf .lut1d b) ∧
      ((∀ x ∈ samples, Spec.ExactEntry A none x) → Spec.TextExact A (.leaf .lut1d b))) ∧
      Spec.IsWritten compat (.leaf .lut1d b) := by
  unfold lut1dSetArray pyDivNat at hb
  rw [if_neg (by omega)] at hb
  simp only [py_ok_bind, py_pure, Except.ok.injEq] at hb
  subst hb
  refine ⟨⟨.leaf trivial ?_ (.inl rfl) (.inl rfl) ?_, fun hs => .leaf trivial ?_ ?_⟩, leaf_writes _ _ _ ?_⟩
  · simp [Spec.AttrsOk, Spec.keysOf, Spec.commonKeys, newLut1d, newBase, Base.setUnlessEmpty, Base.addElement,
      Base.setAttribute, Dict.set, float16]
  · show ∀ e ∈ [Elem.array _], _
    simp only [List.mem_cons, List.not_mem_nil, or_false, forall_eq]
    refine .inr (.inr (.inl ⟨rfl, _, rfl, ?_, ?_, ⟨c, rfl, hc⟩, .inl rfl⟩))
    · simp [Spec.IntegerOut, newLut1d, newBase, Base.setUnlessEmpty, Base.addElement, Base.setAttribute, Dict.set,
        Dict.get?, float16, bitDepthIsInteger]
    · simp [Spec.Flagged, newLut1d, newBase, Base.setUnlessEmpty, Base.addElement, Base.setAttribute, Dict.set,
        Dict.get?, float16, Base.flag]
  · intro n x h
    simp [newLut1d, newBase, Base.setUnlessEmpty, Base.addElement, Base.setAttribute, Dict.get?] at h
  · show ∀ e ∈ [Elem.array _], _
    simp only [List.mem_cons, List.not_mem_nil, or_false, forall_eq]
    exact hs
  · show ∀ e ∈ [Elem.array _], _
    simp only [List.mem_cons, List.not_mem_nil, or_false, forall_eq]
    exact array_writes compat _ c rfl rfl rfl rfl h0

/-- A LUT3D made by the SPI reader can be stored. -/
theorem lut3d_ready (A : Arith K) (compat : ℕ) (load : String → Py (Option (List (Node K)))) (x y z : ℕ)
    (samples : List (Flt K)) (hc : 3 ∣ samples.length) :
    (Spec.Storable compat load (.leaf .lut3d (lut3dSetArray (newLut3d float16 float16 (.str "lut3d")
        (.str "lut3d") (.str "trilinear")) [x, y, z] samples).1) ∧
      ((∀ x ∈ samples, Spec.ExactEntry A none x) → Spec.TextExact A (.leaf .lut3d (lut3dSetArray (newLut3d float16 float16 (.str "lut3d")
        (.str "lut3d") (.str "trilinear")) [x, y, z] samples).1))) ∧
      Spec.IsWritten compat (.leaf .lut3d (lut3dSetArray (newLut3d float16 float16 (.str "lut3d")
        (.str "lut3d") (.str "trilinear")) [x, y, z] samples).1) := by
  unfold lut3dSetArray
  refine ⟨⟨.leaf trivial ?_ (.inl rfl) (.inl rfl) ?_, fun hs => .leaf trivial ?_ ?_⟩, leaf_writes _ _ _ ?_⟩
  · simp [Spec.AttrsOk, Spec.keysOf, Spec.commonKeys, newLut3d, newBase, Base.setUnlessEmpty, Base.addElement,
      Base.setAttribute, Dict.set, float16]
  · show ∀ e ∈ [Elem.array _], _
    simp only [List.mem_cons, List.not_mem_nil, or_false, forall_eq]
    refine .inr (.inl ⟨.inr rfl, _, rfl, ?_, by simp, ⟨3, rfl, hc⟩, .inl rfl⟩)
    simp [Spec.IntegerOut, newLut3d, newBase, Base.setUnlessEmpty, Base.addElement, Base.setAttribute, Dict.set,
      Dict.get?, float16, bitDepthIsInteger]
  · intro n x h
    simp [newLut3d, newBase, Base.setUnlessEmpty, Base.addElement, Base.setAttribute, Dict.get?] at h
  · show ∀ e ∈ [Elem.array _], _
    simp only [List.mem_cons, List.not_mem_nil, or_false, forall_eq]
    exact hs
  · show ∀ e ∈ [Elem.array _], _
    simp only [List.mem_cons, List.not_mem_nil, or_false, forall_eq]
    exact array_writes compat _ 3 rfl rfl rfl rfl (by norm_num)

/-! ## C97 -/

/-- C97: the file that `convertLUTtoCLF.py` writes is read as nodes that process colours like
the nodes made from the LUT file, if every number of them survives its text form and every
part of them has a place in the document.  Missing: other nodes, see `C97_false`. -/
theorem C97_partial (A : Arith K) (compat : ℕ) (formats : List (LutClass K)) (files : Txt → Py Txt)
    (o : ToClfOptions) (path : Txt) (hp : o.lut = some path) (ns : List (Node K))
    (hr : registryRead formats files path ⟨o.inverse, .str "linear", o.useIndexMaps, o.useHalfDomain⟩ =
      .ok (some ns))
    (load : String → Py (Option (List (Node K))))
    (hn : ∀ n ∈ ns, Spec.Storable compat load n ∧ Spec.TextExact A n) (f : File)
    (hf : toClfMain compat formats files o = .ok (some f)) :
    ∃ l', readContents compat (readList A compat load false) f = .ok l' ∧
      ∀ (values : List (Flt K)) (stride : ℕ), processList A compat l'.processes values stride =
        processList A compat ns values stride := by
  unfold toClfMain registryReadList at hf
  cases hcl : o.clf with
  | none => rw [hp, hcl] at hf; cases hf
  | some c =>
    rw [hp, hcl] at hf
    simp only [hr, Except.map, Option.map, py_ok_bind] at hf
    by_cases he : ns.isEmpty
    · rw [if_pos (by exact he)] at hf; cases hf
    · rw [if_neg (by exact he)] at hf
      obtain ⟨g, h1, h2⟩ := py_bind_eq_ok.mp hf
      cases h2
      exact converted_back A compat load (convertedList ns) (by simp [convertedList]) rfl (by simp [convertedList]) hn
        false f h1

theorem toClf_writes (compat : ℕ) (formats : List (LutClass K)) (files : Txt → Py Txt) (o : ToClfOptions)
    (path : Txt) (out : String) (hp : o.lut = some path) (ho : o.clf = some out) (ns : List (Node K))
    (hne : ns ≠ [])
    (hr : registryRead formats files path ⟨o.inverse, .str "linear", o.useIndexMaps, o.useHalfDomain⟩ =
      .ok (some ns)) (hw : ∀ n ∈ ns, Spec.IsWritten compat n) :
    ∃ f, toClfMain compat formats files o = .ok (some f) := by
  obtain ⟨f, hf⟩ := writeFile_exists compat (convertedList ns) (by simp [convertedList]) hw
  refine ⟨f, ?_⟩
  unfold toClfMain registryReadList
  rw [hp, ho]
  simp only [hr, Except.map, Option.map, py_ok_bind]
  rw [if_neg (by simpa [convertedList] using hne), hf]
  rfl

/-- C97 for one-dimensional SPI files: there is a result, and it is what it should be. -/
theorem C97_spi1d_partial (A : Arith K) (compat compat' : ℕ) (fmt : Flt K → Txt) (cs : List (LutClass K))
    (hp : cs.Perm (shippedFormats A compat' fmt)) (files : Txt → Py Txt) (path : Txt)
    (he : Spec.Extension path "spi1d".toList) (t : Txt) (ht : files path = .ok t) (s : Spi1d K)
    (hs : spi1dParse t = .ok s) (h0 : 0 < s.components) (hd : s.components ∣ s.samples.length)
    (hv : ∀ x ∈ s.samples, Spec.ExactEntry A none x) (hlo : Spec.Exact12 s.lo) (hhi : Spec.Exact12 s.hi)
    (out : String) (im hdom : Bool) (load : String → Py (Option (List (Node K)))) :
    ∃ ns f l', readSpi1d t = .ok ns ∧
      toClfMain compat cs files ⟨some path, some out, false, im, hdom⟩ = .ok (some f) ∧
      readContents compat (readList A compat load false) f = .ok l' ∧
      ∀ (values : List (Flt K)) (stride : ℕ), processList A compat l'.processes values stride =
        processList A compat ns values stride := by
  have hlut : ∃ b, lut1dSetArray (newLut1d float16 float16 (.str "lut1d") (.str "lut1d")) s.components
      s.samples = .ok b := by
    unfold lut1dSetArray pyDivNat
    rw [if_neg (by omega)]
    exact ⟨_, rfl⟩
  obtain ⟨b, hb⟩ := hlut
  obtain ⟨ns, hns⟩ : ∃ ns : List (Node K), ns =
    (if s.lo ≠ .fin 0 ∨ s.hi ≠ .fin 1 then [boundedRange "range" s.lo s.hi (.fin 0) (.fin 1)] else []) ++
      [.leaf .lut1d b] := ⟨_, rfl⟩
  have hread : ∀ im hdom, readSpi1d t false (.str "linear") im hdom = .ok ns := by
    intro im hdom
    unfold readSpi1d spi1dForward
    simp only [hs, py_ok_bind, Bool.not_false, if_true, hb, py_pure, hns]
  have hready : ∀ n ∈ ns, (Spec.Storable compat load n ∧ Spec.TextExact A n) ∧ Spec.IsWritten compat n := by
    intro n hn
    rw [hns, List.mem_append] at hn
    rcases hn with hn | hn
    · split at hn
      · rw [List.mem_singleton.mp hn]
        exact boundedRange_ready A compat load _ (by decide) _ _ _ _ hlo hhi exact12_zero exact12_one
      · cases hn
    · rw [List.mem_singleton.mp hn]
      obtain ⟨⟨r1, r2⟩, r3⟩ := lut1d_ready A compat load _ _ h0 hd b hb
      exact ⟨⟨r1, r2 hv⟩, r3⟩
  have hne : ns ≠ [] := by rw [hns]; simp
  have hr : registryRead cs files path ⟨false, .str "linear", im, hdom⟩ = .ok (some ns) := by
    rw [(C52_read A compat' fmt cs hp path _ he files t ht _).1 rfl]
    simp only [hread, Except.map, found_some hne]
  obtain ⟨f, hf⟩ := toClf_writes compat cs files ⟨some path, some out, false, im, hdom⟩ path out rfl rfl ns
    hne hr fun n hn => (hready n hn).2
  obtain ⟨l', h1, h2⟩ := C97_partial A compat cs files ⟨some path, some out, false, im, hdom⟩ path rfl ns hr
    load (fun n hn => (hready n hn).1) f hf
  exact ⟨ns, f, l', hread _ _, hf, h1, h2⟩

/-- C97 for three-dimensional SPI files, in either direction: the reader does not invert
them. -/
theorem C97_spi3d_partial (A : Arith K) (compat compat' : ℕ) (fmt : Flt K → Txt) (cs : List (LutClass K))
    (hp : cs.Perm (shippedFormats A compat' fmt)) (files : Txt → Py Txt) (path : Txt)
    (he : Spec.Extension path "spi3d".toList) (t : Txt) (ht : files path = .ok t) (x y z : ℕ)
    (samples : List (Flt K)) (hs : spi3dParse t = .ok ([x, y, z], samples)) (hd : 3 ∣ samples.length)
    (hv : ∀ x ∈ samples, Spec.ExactEntry A none x) (out : String) (inv im hdom : Bool)
    (load : String → Py (Option (List (Node K)))) :
    ∃ ns f l', readSpi3d t = .ok ns ∧
      toClfMain compat cs files ⟨some path, some out, inv, im, hdom⟩ = .ok (some f) ∧
      readContents compat (readList A compat load false) f = .ok l' ∧
      ∀ (values : List (Flt K)) (stride : ℕ), processList A compat l'.processes values stride =
        processList A compat ns values stride := by
  obtain ⟨n, hn⟩ : ∃ n : Node K, n = .leaf .lut3d (lut3dSetArray (newLut3d float16 float16 (.str "lut3d")
    (.str "lut3d") (.str "trilinear")) [x, y, z] samples).1 := ⟨_, rfl⟩
  have hread : ∀ inv, readSpi3d t inv (.str "linear") = .ok [n] := by
    intro inv
    unfold readSpi3d
    simp only [hs, if_true, py_ok_bind, py_pure, hn]
  have hready : (Spec.Storable compat load n ∧ Spec.TextExact A n) ∧ Spec.IsWritten compat n := by
    rw [hn]
    obtain ⟨⟨r1, r2⟩, r3⟩ := lut3d_ready A compat load x y z samples hd
    exact ⟨⟨r1, r2 hv⟩, r3⟩
  have hne : [n] ≠ [] := by simp
  have hr : registryRead cs files path ⟨inv, .str "linear", im, hdom⟩ = .ok (some [n]) := by
    rw [(C52_read A compat' fmt cs hp path _ he files t ht _).2.1 rfl]
    simp only [hread, Except.map, found_some hne]
  have all : ∀ {P : Node K → Prop}, P n → ∀ m ∈ [n], P m := by
    intro P h m hm
    rw [List.mem_singleton.mp hm]; exact h
  obtain ⟨f, hf⟩ := toClf_writes compat cs files ⟨some path, some out, inv, im, hdom⟩ path out rfl rfl [n]
    hne hr (all hready.2)
  obtain ⟨l', h1, h2⟩ := C97_partial A compat cs files ⟨some path, some out, inv, im, hdom⟩ path rfl [n] hr
    load (all hready.1) f hf
  exact ⟨[n], f, l', hread _, hf, h1, h2⟩

deriving instance DecidableEq for Spi1d

/-- A SPI file whose values survive. -/
def goodSpi : Txt := "Version 1\nFrom -0.5 2\nLength 2\nComponents 1\n{\n 0.25\n 1\n}\n".toList

theorem ext_spi1d : Spec.Extension "a.spi1d".toList "spi1d".toList :=
  ⟨"spi1d".toList, ⟨[], ['a'], rfl, .inl rfl, by decide, ⟨'a', by decide⟩, by decide, by decide⟩,
    by decide +kernel⟩

/-- It meets the hypotheses. -/
example : Spec.Extension "a.spi1d".toList "spi1d".toList ∧ ∃ s : Spi1d ℚ, spi1dParse goodSpi = .ok s ∧
    s.components = 1 ∧ s.samples = [.fin (1 / 4), .fin 1] ∧ s.lo = .fin (-1 / 2) ∧ s.hi = .fin 2 ∧
    (∀ x ∈ s.samples, Spec.ExactEntry ratArith none x) ∧ Spec.Exact12 s.lo ∧ Spec.Exact12 s.hi := by
  refine ⟨ext_spi1d, ⟨2, 1, [.fin (1 / 4), .fin 1], .fin (-1 / 2), .fin 2⟩, by decide +kernel, rfl, rfl, rfl, rfl,
    ?_, ⟨5, -1, by norm_num, by norm_num⟩, ⟨2, 0, by norm_num, by norm_num⟩⟩
  simp only [List.mem_cons, List.not_mem_nil, or_false, forall_eq_or_imp, forall_eq]
  exact ⟨⟨⟨250000000, by norm_num [SFlt.ofFlt]⟩, rfl⟩, ⟨⟨1000000000, by norm_num [SFlt.ofFlt]⟩, rfl⟩⟩

/-- So does a cube of one side two. -/
example : Spec.Extension "a.spi3d".toList "spi3d".toList ∧
    spi3dParse (K := ℚ) "SPILUT 1.0\n3 3\n1 1 2\n0 0 0 0.5 0 1\n0 0 1 2 0.25 1\n".toList =
      .ok ([1, 1, 2], [.fin (1 / 2), .fin 0, .fin 1, .fin 2, .fin (1 / 4), .fin 1]) :=
  ⟨ext_spi3d, by decide +kernel⟩

/-- The round trip through the script, compared with the nodes of the file at a value. -/
def scriptDiffers (t : Txt) (v : ℚ) : Bool :=
  match toClfMain 0 (shippedFormats ratArith 0 fun x => str12 (.ofFlt x)) (fun _ => .ok t)
      ⟨some "a.spi1d".toList, some "a.clf", false, false, false⟩, readSpi1d (K := ℚ) t with
  | .ok (some f), .ok ns =>
    match readContents 0 (readList ratArith 0 (fun _ => .error .ioError) false) f with
    | .ok l' => processList ratArith 0 l'.processes [.fin v] 1 ≠ processList ratArith 0 ns [.fin v] 1
    | .error _ => false
  | _, _ => false

/-- C97 does not hold for every file: nine decimals are written, so `0.0000000001` becomes
zero. -/
theorem C97_false : ∃ (t : Txt) (ns : List (Node ℚ)) (f : File) (l' : PList ℚ), readSpi1d t = .ok ns ∧
    toClfMain 0 (shippedFormats ratArith 0 fun x => str12 (.ofFlt x)) (fun _ => .ok t)
      ⟨some "a.spi1d".toList, some "a.clf", false, false, false⟩ = .ok (some f) ∧
    readContents 0 (readList ratArith 0 (fun _ => .error .ioError) false) f = .ok l' ∧
    processList ratArith 0 l'.processes [.fin 0] 1 ≠ processList ratArith 0 ns [.fin 0] 1 := by
  obtain ⟨t, ht⟩ : ∃ t, scriptDiffers t 0 = true :=
    ⟨"Version 1\nFrom 0 1\nLength 2\nComponents 1\n{\n 0.0000000001\n 1\n}\n".toList, by decide +kernel⟩
  unfold scriptDiffers at ht
  split at ht
  · rename_i f ns h1 h2
    split at ht
    · rename_i l' h3
      exact ⟨t, ns, f, l', h2, h1, h3, by simpa using ht⟩
    · cases ht
  · cases ht

/-- C97 without conditions on the numbers: a one-dimensional SPI file over the unit interval
is converted to within half a unit of the ninth decimal. -/
theorem C97_near_partial (A : Arith K) (hA : A.Exact) (compat compat' : ℕ) (fmt : Flt K → Txt)
    (cs : List (LutClass K)) (hp : cs.Perm (shippedFormats A compat' fmt)) (files : Txt → Py Txt) (path : Txt)
    (he : Spec.Extension path "spi1d".toList) (t : Txt) (ht : files path = .ok t) {m c n : ℕ}
    (hc : c = 0 ∨ c = 2) (V : Fin (m + 2) → Fin (c + 1) → K)
    (hs : spi1dParse t = .ok ⟨n, c + 1, Spec.rowMajor fun i j => .fin (V i j), .fin 0, .fin 1⟩)
    (out : String) (im hdom : Bool) (load : String → Py (Option (List (Node K)))) :
    ∃ ns f l', readSpi1d t = .ok ns ∧
      toClfMain compat cs files ⟨some path, some out, false, im, hdom⟩ = .ok (some f) ∧
      readContents compat (readList A compat load false) f = .ok l' ∧
      ∀ (stride : ℕ) (pixels : List (List (Flt K))), 0 < stride → (∀ p ∈ pixels, p.length = stride) →
      ∃ o o', processList A compat ns pixels.flatten stride = .ok o ∧
        processList A compat l'.processes pixels.flatten stride = .ok o' ∧
        List.Forall₂ (Spec.Near (1 / 2 / 10 ^ 9)) o o' := by
  have hlen : (Spec.rowMajor fun i j => Flt.fin (V i j)).length = (m + 2) * (c + 1) := rowMajor_length _
  obtain ⟨b, hb, hb'⟩ : ∃ b, lut1dSetArray (newLut1d float16 float16 (.str "lut1d") (.str "lut1d")) (c + 1)
      (Spec.rowMajor fun i j => .fin (V i j)) = .ok b ∧ b =
      (newLut1d float16 float16 (.str "lut1d") (.str "lut1d")).addElement (.array
        { dims := [m + 2, c + 1], values := Spec.rowMajor fun i j => .fin (V i j) }) := by
    refine ⟨_, ?_, rfl⟩
    unfold lut1dSetArray pyDivNat
    rw [if_neg (by omega), hlen, Nat.mul_div_cancel _ (by omega)]
    rfl
  have hread : ∀ im hdom, readSpi1d t false (.str "linear") im hdom = .ok [.leaf .lut1d b] := by
    intro im hdom
    unfold readSpi1d spi1dForward
    simp only [hs, py_ok_bind, Bool.not_false, if_true, hb, py_pure]
    simp
  obtain ⟨⟨r1, -⟩, r3⟩ := lut1d_ready A compat load (c + 1) _ (by omega)
    (by rw [hlen]; exact dvd_mul_left _ _) b hb
  have hne : [Node.leaf .lut1d b] ≠ [] := by simp
  have hr : registryRead cs files path ⟨false, .str "linear", im, hdom⟩ = .ok (some [.leaf .lut1d b]) := by
    rw [(C52_read A compat' fmt cs hp path _ he files t ht _).1 rfl]
    simp only [hread, Except.map, found_some hne]
  obtain ⟨f, hf⟩ := writeFile_exists compat (convertedList [.leaf .lut1d b]) (by simp [convertedList])
    (by simpa [convertedList] using r3)
  have hmain : toClfMain compat cs files ⟨some path, some out, false, im, hdom⟩ = .ok (some f) := by
    unfold toClfMain registryReadList
    simp only [hr, Except.map, Option.map, py_ok_bind]
    rw [if_neg (by simp [convertedList]), hf]
    rfl
  rw [← writeFile_texts] at hf
  obtain ⟨l', h1, h2⟩ := C92_lut1d A hA compat load (Spec.texts (convertedList [.leaf .lut1d b]))
    ⟨by simp [Spec.texts, convertedList], by simp [Spec.texts, convertedList], rfl,
      by simp [Spec.texts, convertedList], by simpa [Spec.texts, convertedList] using r1⟩ false f hf b rfl
    (by rw [hb']; rfl) float16 { dims := [m + 2, c + 1], values := Spec.rowMajor fun i j => .fin (V i j) }
    (by
      rw [hb']
      exact ⟨rfl, rfl, by simp [newLut1d, newBase, Base.setUnlessEmpty, Base.addElement, Base.setAttribute,
        Dict.set, Base.styleOf, Dict.get?], rfl, rfl, rfl⟩)
    V ⟨⟨[], rfl⟩, rfl, hc⟩ rfl rfl
  exact ⟨_, f, l', hread _ _, hmain, h1, h2⟩

/-- A value below the ninth decimal. -/
example : ∃ V : Fin 2 → Fin 1 → ℚ, spi1dParse
    "Version 1\nFrom 0 1\nLength 2\nComponents 1\n{\n 0.0000000001\n 1\n}\n".toList =
      .ok ⟨2, 0 + 1, Spec.rowMajor fun i j => .fin (V i j), .fin 0, .fin 1⟩ :=
  ⟨fun i _ => if i = 0 then 1 / 10 ^ 10 else 1, by decide +kernel⟩

/-! ## C100 -/

theorem set_keys {α : Type} (d : Dict α) (k : String) (v : α) : (d.set k v).map Prod.fst =
    if k ∈ d.map Prod.fst then d.map Prod.fst else d.map Prod.fst ++ [k] := by
  induction d with
  | nil => simp [Dict.set]
  | cons p d ih =>
    unfold Dict.set
    by_cases h : p.1 = k
    · simp [h]
    · rw [if_neg h, List.map_cons, ih]
      have h' : ¬ k = p.1 := fun e => h e.symm
      by_cases hk : k ∈ d.map Prod.fst
      · rw [if_pos hk, if_pos (by simp only [List.map_cons, List.mem_cons]; exact .inr hk), List.map_cons]
      · rw [if_neg hk, if_neg (by simp only [List.map_cons, List.mem_cons]; tauto), List.map_cons,
          List.cons_append]

theorem set_mem {α : Type} (d : Dict α) (k : String) (v : α) (p : String × α) (h : p ∈ d.set k v) :
    p ∈ d ∨ p = (k, v) := by
  induction d with
  | nil => exact .inr (by simpa [Dict.set] using h)
  | cons q d ih =>
    unfold Dict.set at h
    split at h
    · rcases List.mem_cons.mp h with h | h
      · exact .inr h
      · exact .inl (List.mem_cons_of_mem _ h)
    · rcases List.mem_cons.mp h with h | h
      · exact .inl (h ▸ List.mem_cons_self ..)
      · rcases ih h with h | h
        · exact .inl (List.mem_cons_of_mem _ h)
        · exact .inr h

theorem attrsOk_set {need : List String} {d : Dict AVal} (h : Spec.AttrsOk need d) (k s : String)
    (h1 : s ≠ "True") (h2 : s ≠ "False") : Spec.AttrsOk need (d.set k (.str s)) := by
  obtain ⟨g1, g2, g3⟩ := h
  refine ⟨?_, fun x hx => ?_, fun p hp => ?_⟩
  · rw [set_keys]
    split
    · exact g1
    · rename_i hk
      exact List.nodup_append.mpr ⟨g1, by simp, by simpa using fun a b hab e => hk (by
        subst e; exact List.mem_map.mpr ⟨(a, b), hab, rfl⟩)⟩
  · rw [set_keys]
    split
    · exact g2 x hx
    · exact List.mem_append_left _ (g2 x hx)
  · rcases set_mem d k _ p hp with hp | rfl
    · exact g3 p hp
    · exact .inr ⟨s, rfl, h1, h2⟩

/-- What the renaming loop does to one node. -/
def Spec.named (description name : String) (b : Base K) : Base K :=
  (b.addElement (.comment "Description" (some description))).setAttribute "name" (.str name)

theorem named_get (description name : String) (b : Base K) (k : String) (h : k ≠ "name") :
    (Spec.named description name b).attrs.get? k = b.attrs.get? k :=
  get?_set_ne b.attrs "name" k _ (Ne.symm h)

theorem named_leafElem (description name : String) (k : Kind K) (b : Base K) (e : Elem K)
    (h : Spec.LeafElemOk k b e) : Spec.LeafElemOk k (Spec.named description name b) e := by
  unfold Spec.LeafElemOk Spec.IntegerOut Spec.Flagged at h ⊢
  simp only [named_get description name b "outBitDepth" (by decide),
    named_get description name b "rawHalfs" (by decide)]
  exact h

theorem named_storable {description name : String} (hd : description ≠ "") (h1 : name ≠ "True")
    (h2 : name ≠ "False") {compat : ℕ} {load : String → Py (Option (List (Node K)))} {n : Node K}
    (h : Spec.Storable compat load n) :
    Spec.Storable compat load (n.mapBase (Spec.named description name)) := by
  have hdesc : Spec.DescriptionOk (.comment "Description" (some description) : Elem K) :=
    ⟨_, rfl, by simpa using hd⟩
  have hn : ∀ (b : Base K) (p : String), Spec.Names b p → Spec.Names (Spec.named description name b) p := by
    intro b p hp
    unfold Spec.Names at hp ⊢
    simp only [named_get description name b "path" (by decide),
      named_get description name b "basePath" (by decide)]
    exact hp
  have he : ∀ {P : Elem K → Prop} (b : Base K), P (.comment "Description" (some description)) →
      (∀ e ∈ b.elements, P e) → ∀ e ∈ (Spec.named description name b).elements, P e := by
    intro P b hp h e hmem
    rcases List.mem_append.mp (show e ∈ b.elements ++ [_] from hmem) with h' | h'
    · exact h e h'
    · rw [List.mem_singleton.mp h']; exact hp
  cases h with
  | leaf a1 a2 a3 a4 a5 =>
    exact .leaf a1 (attrsOk_set a2 "name" name h1 h2) a3 a4
      (he _ (.inl hdesc) fun e hmem => named_leafElem _ _ _ _ e (a5 e hmem))
  | group a1 a2 a3 a4 a5 =>
    exact .group (attrsOk_set a1 "name" name h1 h2) a2 a3
      (he _ (.inl ⟨_, _, rfl, by simp, by simpa using hd⟩) a4) a5
  | ref a1 a2 a3 a4 a5 a6 =>
    exact .ref (attrsOk_set a1 "name" name h1 h2) a2 a3 (he _ hdesc a4) (hn _ _ a5) a6
  | refMissing a1 a2 a3 a4 a5 a6 =>
    exact .refMissing (attrsOk_set a1 "name" name h1 h2) a2 a3 (he _ hdesc a4) (hn _ _ a5) a6

theorem named_exact {description name : String} {A : Arith K} {n : Node K} (h : Spec.TextExact A n) :
    Spec.TextExact A (n.mapBase (Spec.named description name)) := by
  cases h with
  | @leaf k b a1 a2 a3 =>
    refine .leaf a1 a2 fun e he => ?_
    rcases List.mem_append.mp (show e ∈ b.elements ++ [_] from he) with h' | h'
    · exact a3 e h'
    · rw [List.mem_singleton.mp h']; trivial
  | group h => exact .group h
  | ref => exact .ref
  | refMissing => exact .refMissing

theorem tables_comment (es : List (Elem K)) (t : String) (x : Option String) :
    Spec.tablesOf (es ++ [.comment t x]) = Spec.tablesOf es := by
  induction es with
  | nil => rfl
  | cons e es ih => cases e <;> simp [Spec.tablesOf, ih]

theorem maps_comment (es : List (Elem K)) (t : String) (x : Option String) :
    Spec.mapsOf (es ++ [.comment t x]) = Spec.mapsOf es := by
  induction es with
  | nil => rfl
  | cons e es ih => cases e <;> simp [Spec.mapsOf, ih]

theorem named_twin (description name : String) (n : Node K) :
    Spec.Twin n (n.mapBase (Spec.named description name)) := by
  have ha : ∀ b : Base K, Spec.TwinAttrs b (Spec.named description name b) := by
    intro b k hk
    exact named_get _ _ _ _ (by rintro rfl; revert hk; decide)
  cases n with
  | leaf k b =>
    refine .leaf ⟨ha b, fun _ _ => rfl, ?_, ?_⟩
    · rw [show (Spec.named description name b).elements = b.elements ++ [.comment "Description" (some description)]
        from rfl, tables_comment]
    · exact maps_comment _ _ _
  | group b cs => exact .group (ha b) (List.forall₂_same.mpr fun c _ => twin_refl c)
  | ref b w ns => exact .ref (ha b) (List.forall₂_same.mpr fun c _ => twin_refl c)
  | refMissing b w => exact .refMissing (ha b)

theorem name_ne (pre : String) (i : ℕ) : pre ++ " - node " ++ toString i ≠ "True" ∧
    pre ++ " - node " ++ toString i ≠ "False" := by
  have h : ∀ s : String, ' ' ∉ s.toList → pre ++ " - node " ++ toString i ≠ s := by
    rintro s hs rfl
    exact hs (by simp [String.toList_append])
  exact ⟨h _ (by decide), h _ (by decide)⟩

theorem rename_twin (description pre : String) (ns : List (Node K)) :
    List.Forall₂ Spec.Twin ns (renameNodes description pre ns) := by
  unfold renameNodes
  generalize 0 = i
  induction ns generalizing i with
  | nil => exact .nil
  | cons n ns ih =>
    rw [List.zipIdx_cons, List.map_cons]
    exact .cons (named_twin _ _ n) (ih (i + 1))

theorem rename_all {description pre : String} {P Q : Node K → Prop}
    (h : ∀ (n : Node K) (i : ℕ), P n → Q (n.mapBase (Spec.named description (pre ++ " - node " ++ toString i))))
    (ns : List (Node K)) (hp : ∀ n ∈ ns, P n) : ∀ n ∈ renameNodes description pre ns, Q n := by
  intro n hn
  unfold renameNodes at hn
  obtain ⟨⟨m, i⟩, hm, rfl⟩ := List.mem_map.mp hn
  exact h m i (hp m (List.fst_mem_of_mem_zipIdx hm))

/-- The transforms from the colour spaces to the reference space, and from it. -/
def Spec.Steps (config : OcioConfig K) (sources destinations : List String) (ts : List (Ocio K)) : Prop :=
  ∃ ss ds, List.Forall₂ (fun n t => ∃ c, config.colorSpace n = some c ∧ t = c.toReference) sources ss ∧
    List.Forall₂ (fun n t => ∃ c, config.colorSpace n = some c ∧ t = c.fromReference) destinations ds ∧
    ts = ss ++ ds

/-- Converted one by one. -/
def Spec.Parts (env : OcioEnv K) (ts : List (Ocio K)) (parts : List (List (Node K))) : Prop :=
  List.Forall₂ (fun t part => convertTransform env t = .ok part) ts parts

theorem parts_mem {env : OcioEnv K} {ts : List (Ocio K)} {parts : List (List (Node K))}
    (h : Spec.Parts env ts parts) {part : List (Node K)} (hp : part ∈ parts) :
    ∃ t ∈ ts, convertTransform env t = .ok part := by
  unfold Spec.Parts at h
  induction h with
  | nil => cases hp
  | @cons t q ts qs h1 _ ih =>
    rcases List.mem_cons.mp hp with rfl | hp
    · exact ⟨t, List.mem_cons_self .., h1⟩
    · obtain ⟨u, hu, e⟩ := ih hp
      exact ⟨u, List.mem_cons_of_mem _ hu, e⟩

theorem spaces_iff (env : OcioEnv K) (config : OcioConfig K) (d p : String → String)
    (tr : ColorSpace K → Ocio K) (names : List String) (parts' : List (List (Node K))) :
    names.mapM (fun n => spaceNodes env config (d n) (p n) tr n) = .ok parts' ↔
      ∃ ts parts, List.Forall₂ (fun n t => ∃ c, config.colorSpace n = some c ∧ t = tr c) names ts ∧
        Spec.Parts env ts parts ∧
        parts' = List.zipWith (fun n part => renameNodes (d n) (p n) part) names parts := by
  induction names generalizing parts' with
  | nil =>
    constructor
    · intro h
      cases h
      exact ⟨[], [], .nil, .nil, rfl⟩
    · rintro ⟨ts, parts, -, -, rfl⟩
      rfl
  | cons n names ih =>
    rw [py_mapM_cons]
    constructor
    · intro h
      obtain ⟨a, h1, h⟩ := py_bind_eq_ok.mp h
      obtain ⟨as, h2, h⟩ := py_bind_eq_ok.mp h
      cases h
      obtain ⟨ts, parts, g1, g2, rfl⟩ := (ih as).mp h2
      unfold spaceNodes at h1
      split at h1
      · cases h1
      · rename_i c hc
        obtain ⟨ns, h3, h4⟩ := py_bind_eq_ok.mp h1
        cases h4
        exact ⟨tr c :: ts, ns :: parts, .cons ⟨c, hc, rfl⟩ g1, .cons h3 g2, rfl⟩
    · rintro ⟨ts, parts, g1, g2, rfl⟩
      cases g1 with
      | cons h1 g1 =>
        cases g2 with
        | @cons _ part _ parts h2 g2 =>
          obtain ⟨c, hc, rfl⟩ := h1
          rw [(ih _).mpr ⟨_, _, g1, g2, rfl⟩]
          unfold spaceNodes
          simp only [hc, h2, py_ok_bind, py_pure, List.zipWith_cons_cons]

theorem zip_rename_twin (d p : String → String) (names : List String) (parts : List (List (Node K)))
    (h : names.length = parts.length) : List.Forall₂ Spec.Twin parts.flatten
      (List.zipWith (fun n part => renameNodes (d n) (p n) part) names parts).flatten := by
  induction names generalizing parts with
  | nil => cases parts with
    | nil => exact .nil
    | cons => simp at h
  | cons n names ih => cases parts with
    | nil => simp at h
    | cons part parts =>
      simp only [List.zipWith_cons_cons, List.flatten_cons]
      exact List.rel_append (rename_twin _ _ part) (ih parts (by simpa using h))

theorem zip_rename_all {d p : String → String} {P Q : Node K → Prop}
    (h : ∀ (s : String) (n : Node K) (i : ℕ), P n →
      Q (n.mapBase (Spec.named (d s) (p s ++ " - node " ++ toString i))))
    (names : List String) (parts : List (List (Node K))) (hp : ∀ n ∈ parts.flatten, P n) :
    ∀ n ∈ (List.zipWith (fun n part => renameNodes (d n) (p n) part) names parts).flatten, Q n := by
  induction names generalizing parts with
  | nil => simp
  | cons s names ih => cases parts with
    | nil => simp
    | cons part parts =>
      simp only [List.zipWith_cons_cons, List.flatten_cons, List.mem_append] at hp ⊢
      rintro n (hn | hn)
      · exact rename_all (h s) part (fun m hm => hp m (.inl hm)) n hn
      · exact ih parts (fun m hm => hp m (.inr hm)) n hn

/-- The nodes of a conversion are those of the transforms, under other names. -/
theorem ocioNodes_iff (env : OcioEnv K) (config : OcioConfig K) (sources destinations : List String)
    (ns' : List (Node K)) (h : ocioNodes env config sources destinations = .ok ns') :
    ∃ ts parts, Spec.Steps config sources destinations ts ∧ Spec.Parts env ts parts ∧
      List.Forall₂ Spec.Twin parts.flatten ns' ∧
      ∀ P Q : Node K → Prop, (∀ (n : Node K) (d name : String), d ≠ "" → name ≠ "True" → name ≠ "False" →
        P n → Q (n.mapBase (Spec.named d name))) → (∀ n ∈ parts.flatten, P n) → ∀ n ∈ ns', Q n := by
  unfold ocioNodes at h
  obtain ⟨s, h1, h⟩ := py_bind_eq_ok.mp h
  obtain ⟨d, h2, h⟩ := py_bind_eq_ok.mp h
  cases h
  obtain ⟨ts, ps, g1, g2, rfl⟩ := (spaces_iff env config _ _ _ _ _).mp h1
  obtain ⟨us, qs, g3, g4, rfl⟩ := (spaces_iff env config _ _ _ _ _).mp h2
  refine ⟨ts ++ us, ps ++ qs, ⟨ts, us, g1, g3, rfl⟩, List.rel_append g2 g4, ?_, ?_⟩
  · rw [List.flatten_append]
    exact List.rel_append (zip_rename_twin _ _ _ _ (g1.length_eq.trans g2.length_eq))
      (zip_rename_twin _ _ _ _ (g3.length_eq.trans g4.length_eq))
  · intro P Q hPQ hP n hn
    rw [List.flatten_append] at hP
    have ne : ∀ a b : String, a ≠ "" → a ++ b ≠ "" := by
      intro a b ha hab
      exact ha (String.append_eq_empty_iff.mp hab).1
    rcases List.mem_append.mp hn with hn | hn
    · exact zip_rename_all (fun s n i => hPQ n _ _ (ne _ _ (ne _ _ (by decide))) (name_ne _ i).1
        (name_ne _ i).2) _ _ (fun m hm => hP m (List.mem_append_left _ hm)) n hn
    · exact zip_rename_all (fun s n i => hPQ n _ _ (ne _ _ (by decide)) (name_ne _ i).1
        (name_ne _ i).2) _ _ (fun m hm => hP m (List.mem_append_right _ hm)) n hn

/-- The environment the script converts in. -/
def Spec.scriptEnv (formats : List (LutClass K)) (files : Txt → Py Txt) (config : OcioConfig K) (path : Txt)
    (o : OcioOptions) : OcioEnv K :=
  ⟨formats, files, some (pathJoin (dirName path) config.searchPath), o.useIndexMaps, o.useHalfDomain⟩

/-- C100: the file that `convertOCIOtoCLF.py` writes is read as nodes that process colours like
the converted transforms of the sources and then of the destinations, in the order in which
they were given, if every number of them survives its text form and every part of them has a
place in the document.  Missing: other nodes, see C91. -/
theorem C100_partial (A : Arith K) (compat : ℕ) (formats : List (LutClass K)) (files : Txt → Py Txt)
    (configs : Txt → Py (OcioConfig K)) (o : OcioOptions) (path : Txt) (hp : o.config = some path)
    (config : OcioConfig K) (hc : configs path = .ok config)
    (load : String → Py (Option (List (Node K))))
    (hn : ∀ ts, Spec.Steps config o.source o.destination ts → ∀ t ∈ ts, ∀ ns,
      convertTransform (Spec.scriptEnv formats files config path o) t = .ok ns →
      ∀ n ∈ ns, Spec.Storable compat load n ∧ Spec.TextExact A n)
    (f : File) (hf : ocioMain compat formats files configs o = .ok (some f)) :
    ∃ ts parts l', Spec.Steps config o.source o.destination ts ∧
      Spec.Parts (Spec.scriptEnv formats files config path o) ts parts ∧
      readContents compat (readList A compat load false) f = .ok l' ∧
      ∀ (values : List (Flt K)) (stride : ℕ), processList A compat l'.processes values stride =
        processList A compat parts.flatten values stride := by
  unfold ocioMain at hf
  rw [hp] at hf
  cases hout : o.output with
  | none => rw [hout] at hf; cases hf
  | some out =>
    rw [hout] at hf
    simp only at hf
    split at hf
    swap
    · cases hf
    · simp only [hc, py_ok_bind] at hf
      unfold convertOcio ocioList at hf
      obtain ⟨l, h1, h2⟩ := py_bind_eq_ok.mp hf
      obtain ⟨ns', h3, h4⟩ := py_bind_eq_ok.mp h1
      obtain ⟨ts, parts, g1, g2, g3, g4⟩ := ocioNodes_iff _ _ _ _ _ h3
      cases ns' with
      | nil => cases h4; cases h2
      | cons n ns' =>
        cases h4
        simp only at h2
        obtain ⟨f', h5⟩ : ∃ f', ({ convertedList (n :: ns') with
            elements := [.comment "Description" (some (ocioDescription path o.source o.destination))] } :
            PList K).writeFile compat false false = .ok f' := by
          cases h : ({ convertedList (n :: ns') with
            elements := [.comment "Description" (some (ocioDescription path o.source o.destination))] } :
            PList K).writeFile compat false false with
          | ok f' => exact ⟨f', rfl⟩
          | error e => rw [h] at h2; cases h2
        rw [h5] at h2
        cases h2
        have ready : ∀ m ∈ n :: ns', Spec.Storable compat load m ∧ Spec.TextExact A m := by
          refine g4 (fun m => Spec.Storable compat load m ∧ Spec.TextExact A m) _ ?_ ?_
          · intro m d name hd ht hfal hm
            exact ⟨named_storable hd ht hfal hm.1, named_exact hm.2⟩
          · intro m hm
            obtain ⟨part, hpart, hm⟩ := List.mem_flatten.mp hm
            obtain ⟨t, ht, e⟩ := parts_mem g2 hpart
            exact hn ts g1 t ht part e m hm
        obtain ⟨l', b1, b2⟩ := converted_back A compat load _ (by simp [convertedList]) rfl
          (by
            intro e he
            rw [List.mem_singleton.mp he]
            refine .inl ⟨_, _, rfl, by simp, ?_⟩
            intro h
            have h := Option.some.inj h
            unfold ocioDescription at h
            have h := (String.append_eq_empty_iff.mp h).1
            have h := (String.append_eq_empty_iff.mp h).1
            have h := (String.append_eq_empty_iff.mp h).1
            have h := (String.append_eq_empty_iff.mp h).1
            have h := (String.append_eq_empty_iff.mp h).1
            revert h
            decide) ready false _ h5
        refine ⟨ts, parts, l', g1, g2, b1, fun values stride => ?_⟩
        rw [b2]
        exact C90_twin A compat _ _ g3 values stride

theorem parts_fold (A : Arith K) (hA : A.Exact) (compat compat' stride : ℕ) (fmt : Flt K → Txt)
    (env : OcioEnv K) (henv : env.formats.Perm (shippedFormats A compat' fmt)) {ts : List (Ocio K)}
    {parts : List (List (Node K))} (h : Spec.Parts env ts parts) (values : List (Flt K)) :
    processList A compat parts.flatten values stride = ts.foldlM (fun v t => do
      let part ← convertTransform env t
      processList A compat part v stride) values := by
  have hb : NoBypass parts.flatten := by
    intro n hn
    obtain ⟨part, hpart, hm⟩ := List.mem_flatten.mp hn
    obtain ⟨t, -, e⟩ := parts_mem h hpart
    exact convertTransform_noBypass A compat' fmt env henv t part e n hm
  rw [processList_parts A hA compat stride parts hb]
  clear hb
  unfold Spec.Parts at h
  induction h generalizing values with
  | nil => rfl
  | cons h1 _ ih =>
    simp only [List.foldlM_cons, h1, py_ok_bind]
    congr 1
    funext w
    exact ih w

/-- C100: the colours step by step. -/
theorem C100_order_partial (A : Arith K) (hA : A.Exact) (compat compat' : ℕ) (fmt : Flt K → Txt)
    (formats : List (LutClass K)) (hfo : formats.Perm (shippedFormats A compat' fmt)) (files : Txt → Py Txt)
    (configs : Txt → Py (OcioConfig K)) (o : OcioOptions) (path : Txt) (hp : o.config = some path)
    (config : OcioConfig K) (hc : configs path = .ok config)
    (load : String → Py (Option (List (Node K))))
    (hn : ∀ ts, Spec.Steps config o.source o.destination ts → ∀ t ∈ ts, ∀ ns,
      convertTransform (Spec.scriptEnv formats files config path o) t = .ok ns →
      ∀ n ∈ ns, Spec.Storable compat load n ∧ Spec.TextExact A n)
    (f : File) (hf : ocioMain compat formats files configs o = .ok (some f)) :
    ∃ ts l', Spec.Steps config o.source o.destination ts ∧
      readContents compat (readList A compat load false) f = .ok l' ∧
      ∀ (values : List (Flt K)) (stride : ℕ), processList A compat l'.processes values stride =
        ts.foldlM (fun v t => do
          let part ← convertTransform (Spec.scriptEnv formats files config path o) t
          processList A compat part v stride) values := by
  obtain ⟨ts, parts, l', h1, h2, h3, h4⟩ := C100_partial A compat formats files configs o path hp config hc load
    hn f hf
  refine ⟨ts, l', h1, h3, fun values stride => ?_⟩
  rw [h4, parts_fold A hA compat compat' stride fmt _ hfo h2]

theorem pySet_kept {l l' : List (Flt K)} {i : ℕ} {x : Flt K} (h : pySet l i x = .ok l') :
    l'.length = l.length ∧ ∀ y ∈ l', y ∈ l ∨ y = x := by
  unfold pySet at h
  split at h
  · cases h
    exact ⟨List.length_set .., fun y hy => List.mem_or_eq_of_mem_set hy⟩
  · cases h

theorem pyGet_in {l : List (Flt K)} {i : ℕ} {x : Flt K} (h : pyGet l i = .ok x) : x ∈ l := by
  unfold pyGet at h
  split at h
  · rename_i y hy
    cases h
    exact List.mem_of_getElem? hy
  · cases h

/-- A matrix that is converted has complete rows, of numbers it was given. -/
theorem matrixEntries_rows {m offset es : List (Flt K)} {r : List ℕ}
    (h : matrixEntries m offset = .ok (some r, es)) :
    (∃ c, Spec.rowLength r = some c ∧ 0 < c ∧ c ∣ es.length) ∧ ∀ x ∈ es, x ∈ m ∨ x ∈ offset := by
  unfold matrixEntries at h
  dsimp only at h
  obtain ⟨plain, h1, h⟩ : ∃ plain : Bool, (plain = true → m.length = 16) ∧ (if plain = true then do
        let o0 ← pyGet offset 0
        let o1 ← pyGet offset 1
        let o2 ← pyGet offset 2
        if o0 ≠ .fin 0 ∨ o1 ≠ .fin 0 ∨ o2 ≠ .fin 0 then do
          let m ← pySet m 3 o0
          let m ← pySet m 7 o1
          let m ← pySet m 11 o2
          pure (some [3, 4, 3], m)
        else pure (some [3, 3, 3], pySlice m 0 3 ++ pySlice m 4 7 ++ pySlice m 8 11)
      else pure (matrixResolution m.length, m) : Py _) = .ok (some r, es) := by
    split at h
    · obtain ⟨plain, -, h⟩ := py_bind_eq_ok.mp h
      exact ⟨plain, fun _ => ‹_›, h⟩
    · exact ⟨false, by simp, h⟩
  cases plain with
  | false =>
    simp only [Bool.false_eq_true, if_false, py_pure, Except.ok.injEq, Prod.mk.injEq] at h
    obtain ⟨h2, rfl⟩ := h
    refine ⟨?_, fun x hx => .inl hx⟩
    unfold matrixResolution at h2
    split at h2
    · rename_i e
      cases h2
      exact ⟨4, rfl, by norm_num, by rw [e]; norm_num⟩
    · split at h2
      · rename_i e
        cases h2
        exact ⟨4, rfl, by norm_num, by rw [e]; norm_num⟩
      · split at h2
        · rename_i e
          cases h2
          exact ⟨3, rfl, by norm_num, by rw [e]; norm_num⟩
        · cases h2
  | true =>
    have h16 : m.length = 16 := h1 rfl
    simp only [if_true] at h
    obtain ⟨o0, e0, h⟩ := py_bind_eq_ok.mp h
    obtain ⟨o1, e1, h⟩ := py_bind_eq_ok.mp h
    obtain ⟨o2, e2, h⟩ := py_bind_eq_ok.mp h
    split at h
    · obtain ⟨m1, s1, h⟩ := py_bind_eq_ok.mp h
      obtain ⟨m2, s2, h⟩ := py_bind_eq_ok.mp h
      obtain ⟨m3, s3, h⟩ := py_bind_eq_ok.mp h
      simp only [py_pure, Except.ok.injEq, Prod.mk.injEq, Option.some.injEq] at h
      obtain ⟨rfl, rfl⟩ := h
      obtain ⟨l1, k1⟩ := pySet_kept s1
      obtain ⟨l2, k2⟩ := pySet_kept s2
      obtain ⟨l3, k3⟩ := pySet_kept s3
      refine ⟨⟨4, rfl, by norm_num, by rw [l3, l2, l1, h16]; norm_num⟩, fun x hx => ?_⟩
      rcases k3 x hx with hx | rfl
      · rcases k2 x hx with hx | rfl
        · rcases k1 x hx with hx | rfl
          · exact .inl hx
          · exact .inr (pyGet_in e0)
        · exact .inr (pyGet_in e1)
      · exact .inr (pyGet_in e2)
    · simp only [py_pure, Except.ok.injEq, Prod.mk.injEq, Option.some.injEq] at h
      obtain ⟨rfl, rfl⟩ := h
      refine ⟨⟨3, rfl, by norm_num, ?_⟩, fun x hx => ?_⟩
      · simp [pySlice, h16]
      · simp only [pySlice, List.mem_append] at hx
        rcases hx with (hx | hx) | hx <;> exact .inl (List.mem_of_mem_drop (List.mem_of_mem_take hx))

/-- The node of a matrix transform can be stored. -/
theorem convertMatrix_ready (A : Arith K) (compat : ℕ) (load : String → Py (Option (List (Node K))))
    {m offset : List (Flt K)} {fwd : Bool} {n : Node K} (h : convertMatrix m offset fwd = .ok (some n))
    (hm : ∀ x ∈ m, Spec.ExactEntry A none x) (ho : ∀ x ∈ offset, Spec.ExactEntry A none x) :
    (Spec.Storable compat load n ∧ Spec.TextExact A n) ∧ Spec.IsWritten compat n := by
  unfold convertMatrix at h
  split at h
  swap
  · cases h
  · obtain ⟨⟨r, es⟩, h1, h2⟩ := py_bind_eq_ok.mp h
    cases r with
    | none => cases h2
    | some r =>
      simp only [py_pure, Except.ok.injEq, Option.some.injEq] at h2
      subst h2
      obtain ⟨⟨c, hc, h0, hd⟩, hin⟩ := matrixEntries_rows h1
      unfold setMatrix
      refine ⟨⟨.leaf trivial ?_ (.inl rfl) (.inl rfl) ?_, .leaf trivial ?_ ?_⟩, leaf_writes _ _ _ ?_⟩
      · simp [Spec.AttrsOk, Spec.keysOf, Spec.commonKeys, newBase, Base.addElement, float16]
      · show ∀ e ∈ [Elem.array _], _
        simp only [List.mem_cons, List.not_mem_nil, or_false, forall_eq]
        refine .inr (.inl ⟨.inl rfl, _, rfl, ?_, by simp, ⟨c, hc, hd⟩, .inl rfl⟩)
        simp [Spec.IntegerOut, newBase, Base.addElement, Dict.get?, float16, bitDepthIsInteger]
      · intro n x h
        simp [newBase, Base.addElement, Dict.get?] at h
      · show ∀ e ∈ [Elem.array _], _
        simp only [List.mem_cons, List.not_mem_nil, or_false, forall_eq]
        intro x hx
        rcases hin x hx with hx | hx
        · exact hm x hx
        · exact ho x hx
      · show ∀ e ∈ [Elem.array _], _
        simp only [List.mem_cons, List.not_mem_nil, or_false, forall_eq]
        exact array_writes compat _ c rfl rfl rfl hc h0

/-- The node of a log transform can be stored. -/
theorem convertLog_ready (A : Arith K) (compat : ℕ) (load : String → Py (Option (List (Node K))))
    {base : Flt K} {fwd : Bool} {n : Node K} (h : convertLog base fwd = some n) :
    (Spec.Storable compat load n ∧ Spec.TextExact A n) ∧ Spec.IsWritten compat n := by
  have key : ∀ s : String, s ≠ "True" → s ≠ "False" → (Spec.Storable compat load (ocioLog s : Node K) ∧
      Spec.TextExact A (ocioLog s : Node K)) ∧ Spec.IsWritten compat (ocioLog s : Node K) := by
    intro s h1 h2
    refine ⟨⟨.leaf trivial ?_ (.inl rfl) (.inl rfl) ?_, .leaf ?_ ?_ ?_⟩, leaf_writes _ _ _ ?_⟩
    · simp [Spec.AttrsOk, Spec.keysOf, Spec.commonKeys, newBase, Base.setAttribute, Dict.set, float16, h1, h2]
    · simp [newBase, Base.setAttribute]
    · intro p hp; cases hp
    · intro n x h
      simp [newBase, Base.setAttribute, Dict.get?] at h
    · simp [newBase, Base.setAttribute]
    · simp [newBase, Base.setAttribute]
  unfold convertLog at h
  split at h
  · cases h
    cases fwd <;> exact key _ (by decide) (by decide)
  · split at h
    · cases h
      cases fwd <;> exact key _ (by decide) (by decide)
    · cases h

/-- A matrix whose numbers survive their text form, a logarithm, a transform that is skipped,
or a LUT file whose nodes can be stored. -/
def Spec.ExactLeaf (A : Arith K) (compat : ℕ) (load : String → Py (Option (List (Node K)))) (env : OcioEnv K) :
    Ocio K → Prop
  | .matrix m offset _ => ∀ x ∈ m ++ offset, Spec.ExactEntry A none x
  | .file src interpolation fwd => ∀ ns, registryRead env.formats env.files (env.path src)
      ⟨!fwd, interpolation, env.useIndexMaps, env.useHalfDomain⟩ = .ok (some ns) →
      ∀ n ∈ ns, (Spec.Storable compat load n ∧ Spec.TextExact A n) ∧ Spec.IsWritten compat n
  | .log _ _ | .other => True
  | .group _ _ => False

/-- Every node of such a transform can be stored. -/
theorem exactLeaf_ready (A : Arith K) (compat : ℕ) (load : String → Py (Option (List (Node K))))
    (env : OcioEnv K) (t : Ocio K) (ht : Spec.ExactLeaf A compat load env t) (ns : List (Node K))
    (h : convertTransform env t = .ok ns) :
    ∀ n ∈ ns, (Spec.Storable compat load n ∧ Spec.TextExact A n) ∧ Spec.IsWritten compat n := by
  cases t with
  | group _ _ => exact ht.elim
  | file src i fwd =>
    unfold convertTransform convertFile at h
    obtain ⟨r, h1, h2⟩ := py_bind_eq_ok.mp h
    cases r with
    | none => cases h2
    | some r =>
      cases h2
      exact ht _ h1
  | matrix m offset fwd =>
    unfold convertTransform at h
    obtain ⟨r, h1, h2⟩ := py_bind_eq_ok.mp h
    cases h2
    cases r with
    | none => intro n hn; cases hn
    | some r =>
      intro n hn
      rw [List.mem_singleton.mp (show n ∈ [r] from hn)]
      exact convertMatrix_ready A compat load h1 (fun x hx => ht x (List.mem_append_left _ hx))
        fun x hx => ht x (List.mem_append_right _ hx)
  | log base fwd =>
    unfold convertTransform at h
    cases h
    intro n hn
    cases hl : convertLog base fwd with
    | none => rw [hl] at hn; cases hn
    | some r =>
      rw [hl] at hn
      rw [List.mem_singleton.mp (show n ∈ [r] from hn)]
      exact convertLog_ready A compat load hl
  | other => cases h; intro n hn; cases hn

theorem exactTransform_ready (A : Arith K) (compat : ℕ) (load : String → Py (Option (List (Node K))))
    (env : OcioEnv K) (t : Ocio K) (ht : ∀ u ∈ Spec.leaves t, Spec.ExactLeaf A compat load env u)
    (ns : List (Node K)) (h : convertTransform env t = .ok ns) :
    ∀ n ∈ ns, (Spec.Storable compat load n ∧ Spec.TextExact A n) ∧ Spec.IsWritten compat n := by
  obtain ⟨parts, hp, rfl⟩ := (C64_order env t ns).mp h
  intro n hn
  obtain ⟨part, hpart, hm⟩ := List.mem_flatten.mp hn
  obtain ⟨u, hu, e⟩ := parts_mem hp hpart
  exact exactLeaf_ready A compat load env u (ht u hu) part e n hm

theorem writeBase_named (compat : ℕ) (tag : String) (b : Base K) (extra : List Xml) (d name : String) (x : Xml)
    (h : writeBase compat tag b extra = .ok x) :
    ∃ y, writeBase compat tag (Spec.named d name b) extra = .ok y := by
  unfold writeBase at h ⊢
  obtain ⟨es, h1, -⟩ := py_bind_eq_ok.mp h
  have e : (Spec.named d name b).elements = b.elements ++ [.comment "Description" (some d)] := rfl
  rw [e, List.mapM_append, h1]
  simp only [py_ok_bind, py_mapM_cons, List.mapM_nil, Elem.write, py_pure]
  exact ⟨_, rfl⟩

theorem named_writes {compat : ℕ} {n : Node K} (h : Spec.IsWritten compat n) (d name : String) :
    Spec.IsWritten compat (n.mapBase (Spec.named d name)) := by
  intro flag
  obtain ⟨xs, hx⟩ := h flag
  cases n with
  | leaf k b =>
    unfold Node.write at hx
    obtain ⟨x, h1, -⟩ := py_bind_eq_ok.mp hx
    obtain ⟨y, hy⟩ := writeBase_named compat _ b _ d name x h1
    exact ⟨[y], by simp only [Node.mapBase, Node.write, hy, py_ok_bind, py_pure]⟩
  | group b cs =>
    unfold Node.write at hx
    obtain ⟨ys, h0, hx⟩ := py_bind_eq_ok.mp hx
    obtain ⟨x, h1, -⟩ := py_bind_eq_ok.mp hx
    obtain ⟨y, hy⟩ := writeBase_named compat _ b _ d name x h1
    exact ⟨[y], by simp only [Node.mapBase, Node.write, h0, hy, py_ok_bind, py_pure]⟩
  | ref b w ns =>
    unfold Node.write at hx
    unfold Node.mapBase Node.write
    split at hx
    · rw [if_pos ‹_›]; exact ⟨_, hx⟩
    · rw [if_neg ‹_›]
      obtain ⟨x, h1, -⟩ := py_bind_eq_ok.mp hx
      obtain ⟨y, hy⟩ := writeBase_named compat _ b _ d name x h1
      exact ⟨[y], by simp only [hy, py_ok_bind, py_pure]⟩
  | refMissing b w =>
    unfold Node.write at hx
    unfold Node.mapBase Node.write
    split at hx
    · cases hx
    · rw [if_neg ‹_›]
      obtain ⟨x, h1, -⟩ := py_bind_eq_ok.mp hx
      obtain ⟨y, hy⟩ := writeBase_named compat _ b _ d name x h1
      exact ⟨[y], by simp only [hy, py_ok_bind, py_pure]⟩

theorem forall₂_functional {α β : Type} {R : α → β → Prop} (hR : ∀ a b c, R a b → R a c → b = c) {as : List α}
    {bs cs : List β} (h1 : List.Forall₂ R as bs) (h2 : List.Forall₂ R as cs) : bs = cs := by
  induction h1 generalizing cs with
  | nil => cases h2; rfl
  | cons h _ ih =>
    cases h2 with
    | cons h' t => rw [hR _ _ _ h h', ih t]

theorem steps_unique {config : OcioConfig K} {ss ds : List String} {ts us : List (Ocio K)}
    (h1 : Spec.Steps config ss ds ts) (h2 : Spec.Steps config ss ds us) : ts = us := by
  obtain ⟨a, b, p1, p2, rfl⟩ := h1
  obtain ⟨c, d, q1, q2, rfl⟩ := h2
  have e : ∀ (tr : ColorSpace K → Ocio K) (n : String) (t u : Ocio K),
      (∃ c, config.colorSpace n = some c ∧ t = tr c) → (∃ c, config.colorSpace n = some c ∧ u = tr c) → t = u := by
    rintro tr n t u ⟨c, h, rfl⟩ ⟨d, h', rfl⟩
    rw [h] at h'
    cases h'
    rfl
  rw [forall₂_functional (e _) p1 q1, forall₂_functional (e _) p2 q2]

theorem parts_unique {env : OcioEnv K} {ts : List (Ocio K)} {p q : List (List (Node K))}
    (h1 : Spec.Parts env ts p) (h2 : Spec.Parts env ts q) : p = q :=
  forall₂_functional (fun _ _ _ h h' => Except.ok.inj (h.symm.trans h')) h1 h2

theorem ocioNodes_exists {env : OcioEnv K} {config : OcioConfig K} {ss ds : List String} {ts : List (Ocio K)}
    {parts : List (List (Node K))} (h1 : Spec.Steps config ss ds ts) (h2 : Spec.Parts env ts parts) :
    ∃ ns', ocioNodes env config ss ds = .ok ns' := by
  obtain ⟨a, b, p1, p2, rfl⟩ := h1
  have h' := h2.flip
  have g1 := (List.forall₂_take_append _ _ _ h').flip
  have g2 := (List.forall₂_drop_append _ _ _ h').flip
  unfold ocioNodes
  rw [(spaces_iff env config _ _ _ _ _).mpr ⟨_, _, p1, g1, rfl⟩,
    (spaces_iff env config _ _ _ _ _).mpr ⟨_, _, p2, g2, rfl⟩]
  exact ⟨_, rfl⟩

/-- C100 for transforms whose numbers survive: there is a result, and it is what it should
be. -/
theorem C100_exact_partial (A : Arith K) (hA : A.Exact) (compat compat' : ℕ) (fmt : Flt K → Txt)
    (formats : List (LutClass K)) (hfo : formats.Perm (shippedFormats A compat' fmt)) (files : Txt → Py Txt)
    (configs : Txt → Py (OcioConfig K)) (o : OcioOptions) (path : Txt) (out : String)
    (hp : o.config = some path) (ho : o.output = some out) (config : OcioConfig K)
    (hc : configs path = .ok config) (load : String → Py (Option (List (Node K)))) (ts : List (Ocio K))
    (hs : Spec.Steps config o.source o.destination ts) (parts : List (List (Node K)))
    (hparts : Spec.Parts (Spec.scriptEnv formats files config path o) ts parts) (hne : parts.flatten ≠ [])
    (hx : ∀ t ∈ ts, ∀ u ∈ Spec.leaves t,
      Spec.ExactLeaf A compat load (Spec.scriptEnv formats files config path o) u) :
    ∃ f l', ocioMain compat formats files configs o = .ok (some f) ∧
      readContents compat (readList A compat load false) f = .ok l' ∧
      ∀ (values : List (Flt K)) (stride : ℕ), processList A compat l'.processes values stride =
        ts.foldlM (fun v t => do
          let part ← convertTransform (Spec.scriptEnv formats files config path o) t
          processList A compat part v stride) values := by
  have hready := fun t ht ns h => exactTransform_ready A compat load _ t (hx t ht) ns h
  obtain ⟨ns', hns'⟩ := ocioNodes_exists hs hparts
  obtain ⟨ts', parts', g1, g2, g3, g4⟩ := ocioNodes_iff _ _ _ _ _ hns'
  obtain rfl := steps_unique hs g1
  obtain rfl := parts_unique hparts g2
  have hw : ∀ n ∈ ns', Spec.IsWritten compat n := by
    refine g4 (Spec.IsWritten compat) _ (fun n d name _ _ _ h => named_writes h d name) ?_
    intro n hn
    obtain ⟨part, hpart, hm⟩ := List.mem_flatten.mp hn
    obtain ⟨t, ht, e⟩ := parts_mem hparts hpart
    exact (hready t ht part e n hm).2
  have hany : o.source ≠ [] ∨ o.destination ≠ [] := by
    by_contra hno
    simp only [not_or, not_not] at hno
    obtain ⟨a, b, p1, p2, rfl⟩ := hs
    rw [hno.1] at p1
    rw [hno.2] at p2
    cases p1
    cases p2
    cases hparts
    exact hne rfl
  obtain ⟨f, hf⟩ : ∃ f, ocioMain compat formats files configs o = .ok (some f) := by
    cases ns' with
    | nil =>
      cases hpf : parts.flatten with
      | nil => exact (hne hpf).elim
      | cons => rw [hpf] at g3; cases g3
    | cons n ns' =>
      obtain ⟨f, hf⟩ := writeFile_exists compat ({ convertedList (n :: ns') with
            elements := [.comment "Description" (some (ocioDescription path o.source o.destination))] } :
            PList K) (by
              intro e he
              rw [List.mem_singleton.mp he]
              exact ⟨_, rfl⟩) hw
      refine ⟨f, ?_⟩
      unfold ocioMain
      rw [hp, ho]
      simp only [if_pos hany, hc, py_ok_bind]
      unfold convertOcio ocioList
      have hns' : ocioNodes ⟨formats, files, some (pathJoin (dirName path) config.searchPath), o.useIndexMaps,
        o.useHalfDomain⟩ config o.source o.destination = .ok (n :: ns') := hns'
      simp only [hns', py_ok_bind, py_pure, hf]
      rfl
  obtain ⟨ts', l', b1, b2, b3⟩ := C100_order_partial A hA compat compat' fmt formats hfo files configs o path hp
    config hc load (fun us hus t ht ns h n hn => by
      obtain rfl := steps_unique hs hus
      exact (hready t ht ns h n hn).1) f hf
  obtain rfl := steps_unique hs b1
  exact ⟨f, l', hf, b2, b3⟩

/-- C100: nothing is written without a configuration, an output or a colour space, or when
the transforms have no nodes.  An unknown colour space stops the script. -/
theorem C100_stops (compat : ℕ) (formats : List (LutClass K)) (files : Txt → Py Txt)
    (configs : Txt → Py (OcioConfig K)) (o : OcioOptions) :
    (o.config = none ∨ o.output = none ∨ o.source = [] ∧ o.destination = [] →
      ocioMain compat formats files configs o = .ok none) ∧
    ∀ path config out, o.config = some path → o.output = some out → configs path = .ok config →
      (∀ ts parts, Spec.Steps config o.source o.destination ts →
        Spec.Parts (Spec.scriptEnv formats files config path o) ts parts → parts.flatten = [] →
        ocioMain compat formats files configs o = .ok none) ∧
      ∀ s ∈ o.source ++ o.destination, config.colorSpace s = none →
        ∃ e, ocioMain compat formats files configs o = .error e := by
  constructor
  · intro h
    unfold ocioMain
    rcases h with h | h | h
    · rw [h]; rfl
    · rw [h]
      cases o.config <;> rfl
    · cases o.config with
      | none => rfl
      | some p =>
        cases o.output with
        | none => rfl
        | some q =>
          simp only
          rw [if_neg (by rw [h.1, h.2]; simp)]
          rfl
  · intro path config out hp ho hc
    constructor
    · intro ts parts hs hparts hnil
      unfold ocioMain
      rw [hp, ho]
      simp only
      split
      · obtain ⟨ns', hns'⟩ := ocioNodes_exists hs hparts
        obtain ⟨ts', parts', g1, g2, g3, -⟩ := ocioNodes_iff _ _ _ _ _ hns'
        obtain rfl := steps_unique hs g1
        obtain rfl := parts_unique hparts g2
        rw [hnil] at g3
        cases g3
        have hns' : ocioNodes ⟨formats, files, some (pathJoin (dirName path) config.searchPath), o.useIndexMaps,
          o.useHalfDomain⟩ config o.source o.destination = .ok [] := hns'
        simp only [hc, py_ok_bind]
        unfold convertOcio ocioList
        simp only [hns', py_ok_bind, py_pure]
      · rfl
    · intro s hs hnone
      have hany : o.source ≠ [] ∨ o.destination ≠ [] := by
        rcases List.mem_append.mp hs with h | h
        · exact .inl (List.ne_nil_of_mem h)
        · exact .inr (List.ne_nil_of_mem h)
      unfold ocioMain
      rw [hp, ho]
      simp only [if_pos hany, hc, py_ok_bind]
      unfold convertOcio ocioList
      cases hns : ocioNodes ⟨formats, files, some (pathJoin (dirName path) config.searchPath), o.useIndexMaps,
          o.useHalfDomain⟩ config o.source o.destination with
      | error e => exact ⟨e, by simp only [hns, py_error_bind]⟩
      | ok ns' =>
        obtain ⟨ts, -, ⟨a, b, p1, p2, -⟩, -, -, -⟩ := ocioNodes_iff _ _ _ _ _ hns
        have known : ∀ {names : List String} {us : List (Ocio K)} {tr : ColorSpace K → Ocio K},
            List.Forall₂ (fun n t => ∃ c, config.colorSpace n = some c ∧ t = tr c) names us → s ∉ names := by
          intro names us tr h hm
          induction h with
          | nil => cases hm
          | cons h _ ih =>
            rcases List.mem_cons.mp hm with rfl | hm
            · obtain ⟨c, hc, -⟩ := h
              rw [hnone] at hc
              cases hc
            · exact ih hm
        rcases List.mem_append.mp hs with h | h
        · exact (known p1 h).elim
        · exact (known p2 h).elim

/-- A configuration with two spaces: one doubles, one is logarithmic. -/
def twoSpaces : OcioConfig ℚ where
  searchPath := "luts".toList
  colorSpace n :=
    if n = "a" then some ⟨.group true [.matrix (Spec.entries ![![2, 0, 0, 0], ![0, 2, 0, 0], ![0, 0, 2, 0],
      ![0, 0, 0, 1]]) (Spec.fins ![0, 1, 0, 0]) true, .log (.fin 10) true], .other⟩
    else if n = "b" then some ⟨.other, .matrix (Spec.entries ![![1, 0, 0, 0], ![0, 3, 0, 0], ![0, 0, 1, 0],
      ![0, 0, 0, 1]]) (Spec.fins ![0, 0, 0, 0]) true⟩
    else none

/-- It meets the hypotheses: three nodes from `a` to `b`. -/
example : ∃ ts parts, Spec.Steps twoSpaces ["a"] ["b"] ts ∧
    Spec.Parts (Spec.scriptEnv (shippedFormats ratArith 0 fun x => str12 (.ofFlt x)) (fun _ => .error .ioError)
      twoSpaces "c.ocio".toList ⟨some "c.ocio".toList, ["a"], ["b"], some "o.clf", true, true⟩) ts parts ∧
    parts.flatten.length = 3 ∧
    ∀ t ∈ ts, ∀ u ∈ Spec.leaves t, Spec.ExactLeaf ratArith 0 (fun _ => .error .ioError)
      (Spec.scriptEnv (shippedFormats ratArith 0 fun x => str12 (.ofFlt x)) (fun _ => .error .ioError)
      twoSpaces "c.ocio".toList ⟨some "c.ocio".toList, ["a"], ["b"], some "o.clf", true, true⟩) u := by
  refine ⟨_, [_, _], ⟨[_], [_], .cons ⟨_, rfl, rfl⟩ .nil, .cons ⟨_, rfl, rfl⟩ .nil, rfl⟩,
    .cons rfl (.cons rfl .nil), rfl, ?_⟩
  have hint : ∀ n : ℕ, Spec.ExactEntry ratArith none (.fin (n : ℚ)) := fun n =>
    ⟨⟨n * 10 ^ 9, by simp [SFlt.ofFlt]; norm_num⟩, rfl⟩
  simp only [List.cons_append, List.nil_append, List.mem_cons, List.not_mem_nil, or_false, forall_eq_or_imp,
    forall_eq, Spec.leaves, Spec.leavesAll, List.append_nil]
  refine ⟨⟨?_, trivial⟩, ?_⟩
  all_goals
    intro x hx
    rw [entries_eq, fins4_eq] at hx
    have : x = .fin ((0 : ℕ) : ℚ) ∨ x = .fin ((1 : ℕ) : ℚ) ∨ x = .fin ((2 : ℕ) : ℚ) ∨ x = .fin ((3 : ℕ) : ℚ) := by
      simp at hx
      norm_num
      tauto
    rcases this with rfl | rfl | rfl | rfl <;> exact hint _

/-- A configuration with one space, which multiplies by this factor. -/
def factorSpace (k : ℚ) : OcioConfig ℚ where
  searchPath := []
  colorSpace _ := some ⟨.matrix (Spec.entries ![![k, 0, 0, 0], ![0, k, 0, 0], ![0, 0, k, 0], ![0, 0, 0, 1]])
    (Spec.fins ![0, 0, 0, 0]) true, .other⟩

/-- The options of a conversion from `a`. -/
def fromA : OcioOptions := ⟨some "c.ocio".toList, ["a"], [], some "o.clf", false, false⟩

/-- The round trip through the script, compared with the nodes of the transform at white. -/
def ocioDiffers (k : ℚ) : Bool :=
  match ocioMain 0 (shippedFormats ratArith 0 fun x => str12 (.ofFlt x)) (fun _ => .error .ioError)
      (fun _ => .ok (factorSpace k)) fromA,
    (convertMatrix (Spec.entries ![![k, 0, 0, 0], ![0, k, 0, 0], ![0, 0, k, 0], ![0, 0, 0, 1]])
      (Spec.fins ![0, 0, 0, 0]) true) with
  | .ok (some f), .ok (some n) =>
    match readContents 0 (readList ratArith 0 (fun _ => .error .ioError) false) f with
    | .ok l' => processList ratArith 0 l'.processes [.fin 1, .fin 1, .fin 1] 3 ≠
        processList ratArith 0 [n] [.fin 1, .fin 1, .fin 1] 3
    | .error _ => false
  | _, _ => false

/-- C100 does not hold for every transform: an entry below the ninth decimal becomes zero. -/
theorem C100_false : ∃ (k : ℚ) (n : Node ℚ) (f : File) (l' : PList ℚ),
    convertTransform ⟨shippedFormats ratArith 0 fun x => str12 (.ofFlt x), fun _ => .error .ioError, none,
      false, false⟩ (.matrix (Spec.entries ![![k, 0, 0, 0], ![0, k, 0, 0], ![0, 0, k, 0], ![0, 0, 0, 1]])
      (Spec.fins ![0, 0, 0, 0]) true) = .ok [n] ∧
    ocioMain 0 (shippedFormats ratArith 0 fun x => str12 (.ofFlt x)) (fun _ => .error .ioError)
      (fun _ => .ok (factorSpace k)) fromA = .ok (some f) ∧
    readContents 0 (readList ratArith 0 (fun _ => .error .ioError) false) f = .ok l' ∧
    processList ratArith 0 l'.processes [.fin 1, .fin 1, .fin 1] 3 ≠
      processList ratArith 0 [n] [.fin 1, .fin 1, .fin 1] 3 := by
  obtain ⟨k, hk⟩ : ∃ k, ocioDiffers k = true := ⟨1 / 10 ^ 10, by decide +kernel⟩
  unfold ocioDiffers at hk
  split at hk
  · rename_i f n h1 h2
    split at hk
    · rename_i l' h3
      exact ⟨k, n, f, l', by simp only [convertTransform, h2, py_ok_bind]; rfl, h1, h3, by simpa using hk⟩
    · cases hk
  · cases hk

end CLF
