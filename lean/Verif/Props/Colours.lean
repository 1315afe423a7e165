import Verif.Spec.Colours
import Verif.Props.RoundTrip

/-! # What colours depend on, and colours after writing and reading -/

set_option linter.unusedSectionVars false

namespace CLF

variable {K : Type} [Field K] [LinearOrder K] [IsStrictOrderedRing K] [FloorRing K]

/-! ### C90: colours depend on the colour data only -/

theorem attrE_twin {b b' : Base K} {k : String} (h : b'.attrs.get? k = b.attrs.get? k) :
    b'.attrE k = b.attrE k := by
  unfold Base.attrE Dict.getE
  rw [h]

theorem styleOf_twin {b b' : Base K} {k : String} (h : b'.attrs.get? k = b.attrs.get? k) :
    b'.styleOf k = b.styleOf k := by
  unfold Base.styleOf
  rw [h]

theorem flag_twin {b b' : Base K} {k : String} (h : b'.attrs.get? k = b.attrs.get? k) :
    b'.flag k = b.flag k := by
  unfold Base.flag
  rw [h]

theorem tablesOf_eq (es : List (Elem K)) :
    Spec.tablesOf es = (arraysOf es).map fun a => (a.dims, a.values) := by
  induction es with
  | nil => rfl
  | cons e es ih =>
    cases e with
    | array a => rw [Spec.tablesOf, ih]; rfl
    | _ => exact ih

theorem mapsOf_eq (b : Base K) :
    Spec.mapsOf b.elements = b.indexMaps.map fun m => (m.inputs, m.outputs) := by
  unfold Base.indexMaps
  induction b.elements with
  | nil => rfl
  | cons e es ih =>
    cases e with
    | indexMap a => rw [Spec.mapsOf, ih]; rfl
    | _ => exact ih

/-- The tables in use have the same shape and values, or there is none. -/
theorem array_twin {b b' : Base K}
    (h : (Spec.tablesOf b'.elements).getLast? = (Spec.tablesOf b.elements).getLast?) :
    (∃ a a', b.array = .ok a ∧ b'.array = .ok a' ∧ a'.dims = a.dims ∧ a'.values = a.values) ∨
    (b.array = .error .attributeError ∧ b'.array = .error .attributeError) := by
  rw [tablesOf_eq, tablesOf_eq, List.getLast?_map, List.getLast?_map] at h
  unfold Base.array
  cases h1 : (arraysOf b.elements).getLast? with
  | none =>
    rw [h1] at h
    rw [Option.map_none, Option.map_eq_none_iff] at h
    rw [h]
    exact .inr ⟨rfl, rfl⟩
  | some a =>
    rw [h1] at h
    rw [Option.map_some, Option.map_eq_some_iff] at h
    obtain ⟨a', h2, h3⟩ := h
    rw [h2]
    exact .inl ⟨a, a', rfl, rfl, congrArg Prod.fst h3, congrArg Prod.snd h3⟩

theorem index_process_twin {m m' : IndexMap K} (h : (m'.inputs, m'.outputs) = (m.inputs, m.outputs))
    (x : Flt K) : m'.process x = m.process x := by
  obtain ⟨d, i, o⟩ := m
  obtain ⟨d', i', o'⟩ := m'
  cases h
  have hs : ∀ n j, IndexMap.search (⟨d', i, o⟩ : IndexMap K) x j n =
      IndexMap.search ⟨d, i, o⟩ x j n := by
    intro n
    induction n with
    | zero => intro j; rfl
    | succ n ih =>
      intro j
      simp only [IndexMap.search, ih]
  unfold IndexMap.process IndexMap.processRaw
  cases x with
  | fin v => simp only [hs]
  | _ => rfl

theorem pyGet_index_twin {ms ms' : List (IndexMap K)}
    (h : ms'.map (fun m => (m.inputs, m.outputs)) = ms.map fun m => (m.inputs, m.outputs)) (i : ℕ)
    (x : Flt K) (f : Flt K → Py (Flt K)) :
    (do let m ← pyGet ms' i; let y ← m.process x; f y : Py (Flt K)) =
      (do let m ← pyGet ms i; let y ← m.process x; f y) := by
  have h' := congrArg (fun l => l[i]?) h
  simp only [List.getElem?_map] at h'
  unfold pyGet
  cases h1 : ms[i]? with
  | none =>
    rw [h1, Option.map_none, Option.map_eq_none_iff] at h'
    rw [h']
  | some m =>
    rw [h1, Option.map_some, Option.map_eq_some_iff] at h'
    obtain ⟨m', h2, h3⟩ := h'
    rw [h2]
    show (do let y ← m'.process x; f y : Py (Flt K)) = (do let y ← m.process x; f y)
    rw [index_process_twin h3]

theorem lutNormalize_twin (A : Arith K) {ms ms' : List (IndexMap K)}
    (h : ms'.map (fun m => (m.inputs, m.outputs)) = ms.map fun m => (m.inputs, m.outputs))
    (inD : Depth) (dim : Py ℕ) (i : ℕ) (x : Flt K) :
    lutNormalize A ms' inD dim i x = lutNormalize A ms inD dim i x := by
  have hl : ms'.length = ms.length := by simpa using congrArg List.length h
  unfold lutNormalize
  rw [hl]
  rw [pyGet_index_twin h i x (fun y => do let d ← dim; pure (A.f32 (A.f32 y / .fin ((d : K) - 1)))),
    pyGet_index_twin h 0 x (fun y => do let d ← dim; pure (A.f32 (A.f32 y / .fin ((d : K) - 1))))]

theorem leaf_twin (A : Arith K) (compat : ℕ) (k : Kind K) {b b' : Base K} (h : Spec.TwinBase b b')
    (vs : List (Flt K)) (stride : ℕ) :
    leafProcess A compat k b' vs stride = leafProcess A compat k b vs stride := by
  obtain ⟨ha, hv, ht, hm⟩ := h
  have a1 := ha "inBitDepth" (by decide)
  have a2 := ha "outBitDepth" (by decide)
  have a3 := ha "style" (by decide)
  have a4 := ha "interpolation" (by decide)
  have a5 := ha "halfDomain" (by decide)
  have a6 := ha "defaultRange" (by decide)
  have v1 := hv "minInValue" (by decide)
  have v2 := hv "maxInValue" (by decide)
  have v3 := hv "minOutValue" (by decide)
  have v4 := hv "maxOutValue" (by decide)
  rw [mapsOf_eq, mapsOf_eq] at hm
  have ht := array_twin ht
  cases k with
  | range =>
    unfold leafProcess rangeProcess rangeBound
    simp only [attrE_twin a1, attrE_twin a2, a3, a6, v1, v2, v3, v4]
  | matrix =>
    unfold leafProcess matrixProcess
    simp only [attrE_twin a1, attrE_twin a2]
    rcases ht with ⟨a, a', h1, h2, h3, h4⟩ | ⟨h1, h2⟩
    · rw [h1, h2]
      simp only [py_ok_bind, h3, h4]
    · rw [h1, h2]
  | lut1d =>
    unfold leafProcess lut1dProcess
    simp only [attrE_twin a1, attrE_twin a2, styleOf_twin a4, flag_twin a5, lutNormalize_twin A hm]
    rcases ht with ⟨a, a', h1, h2, h3, h4⟩ | ⟨h1, h2⟩
    · rw [h1, h2]
      obtain ⟨d, v, i, r, f⟩ := a
      obtain ⟨d', v', i', r', f'⟩ := a'
      cases h3; cases h4
      rfl
    · rw [h1, h2]
  | lut3d =>
    unfold leafProcess lut3dProcess
    simp only [attrE_twin a1, attrE_twin a2, styleOf_twin a4, lutNormalize_twin A hm]
    rcases ht with ⟨a, a', h1, h2, h3, h4⟩ | ⟨h1, h2⟩
    · rw [h1, h2]
      obtain ⟨d, v, i, r, f⟩ := a
      obtain ⟨d', v', i', r', f'⟩ := a'
      cases h3; cases h4
      rfl
    · rw [h1, h2]
  | cdl cc v =>
    unfold leafProcess cdlProcess
    simp only [attrE_twin a1, attrE_twin a2, styleOf_twin a3]
  | exposureContrast e c p =>
    unfold leafProcess ecProcess
    simp only [attrE_twin a1, attrE_twin a2, styleOf_twin a3]
  | gamma ps =>
    unfold leafProcess gammaProcess
    simp only [attrE_twin a1, attrE_twin a2, styleOf_twin a3]
  | log ps =>
    unfold leafProcess logProcess
    simp only [attrE_twin a1, attrE_twin a2, styleOf_twin a3]
  | plain => rfl

theorem twin_attr {n n' : Node K} (h : Spec.Twin n n') (k : String) (hk : k ∈ Spec.colourAttrs) :
    n'.attr k = n.attr k := by
  cases h with
  | leaf h => exact h.1 k hk
  | group h => exact h k hk
  | ref h => exact h k hk
  | refMissing h => exact h k hk

theorem runNodes_twin (A : Arith K) (compat stride : ℕ) (g : Bool) {ns ns' : List (Node K)}
    (h : List.Forall₂ Spec.Twin ns ns')
    (hp : ∀ n ∈ ns, ∀ n', Spec.Twin n n' → ∀ vs, n'.process A compat stride vs = n.process A compat stride vs) :
    ∀ (prev : Option Depth) (s : Res K),
      runNodes A compat stride g prev ns' s = runNodes A compat stride g prev ns s := by
  induction h with
  | nil => intro prev s; rfl
  | @cons n n' rest rest' hn hr ih =>
    intro prev s
    have ih := ih fun m hm => hp m (List.mem_cons_of_mem _ hm)
    rw [runNodes_cons, runNodes_cons, twin_attr hn "bypass" (by decide),
      hp n (List.mem_cons_self ..) n' hn,
      show n'.outDepth = n.outDepth from twin_attr hn "outBitDepth" (by decide)]
    simp only [ih]
    cases hr with
    | nil => rfl
    | @cons m m' _ _ hm _ =>
      have hd : m'.inDepth = m.inDepth := twin_attr hm "inBitDepth" (by decide)
      cases prev with
      | none => rfl
      | some d => simp only [hd]

theorem process_twin (A : Arith K) (compat stride : ℕ) (n : Node K) :
    ∀ n', Spec.Twin n n' → ∀ vs, n'.process A compat stride vs = n.process A compat stride vs := by
  induction n using Node.ind with
  | hleaf k b =>
    intro n' h vs
    cases h with
    | leaf hb => rw [Node.process, Node.process]; exact leaf_twin A compat k hb vs stride
  | hgroup b cs ih =>
    intro n' h vs
    cases h with
    | group hb hc =>
      rw [Node.process, Node.process]
      exact runNodes_twin A compat stride true hc ih _ _
  | href b w ns ih =>
    intro n' h vs
    cases h with
    | ref hb hc =>
      rw [Node.process, Node.process]
      simp only [runNodes_twin A compat stride false hc ih]
  | hmiss b w =>
    intro n' h vs
    cases h with
    | refMissing hb => rw [Node.process, Node.process]

/-- Lists whose nodes have the same colour data give the same result, or the same error, for
every image: names, ids, descriptions, comments, dynamic parameters, attributes without a
meaning, the file form of tables and replaced tables play no role, at any depth. -/
theorem C90_twin (A : Arith K) (compat : ℕ) (ns ns' : List (Node K)) (h : List.Forall₂ Spec.Twin ns ns')
    (values : List (Flt K)) (stride : ℕ) :
    processList A compat ns' values stride = processList A compat ns values stride := by
  unfold processList
  simp only [runNodes_twin A compat stride false h fun n _ => process_twin A compat stride n]

/-- Two matrices that differ in every other respect. -/
example : List.Forall₂ Spec.Twin
    [(.leaf .matrix
      { attrs := [("inBitDepth", .str "16f"), ("outBitDepth", .str "16f"), ("id", .str "a")]
        elements := [.comment "Description" (some "one"),
          .array ⟨[1, 1], [.fin 9], true, false, "string"⟩,
          .array ⟨[1, 1], [.fin 2], false, false, "hex16bit"⟩] } : Node ℚ)]
    [.leaf .matrix
      { attrs := [("name", .str "b"), ("outBitDepth", .str "16f"), ("inBitDepth", .str "16f")]
        dyn := ["x"]
        elements := [.array ⟨[1, 1], [.fin 2], true, false, "string"⟩,
          .comment "Description" (some "two")] }] :=
  .cons (.leaf ⟨by unfold Spec.TwinAttrs; decide, by decide, rfl, rfl⟩) .nil

/-! ### C91: colours after writing and reading -/

theorem twinBase_refl (b : Base K) : Spec.TwinBase b b :=
  ⟨fun _ _ => rfl, fun _ _ => rfl, rfl, rfl⟩

theorem twin_refl (n : Node K) : Spec.Twin n n := by
  induction n using Node.ind with
  | hleaf k b => exact .leaf (twinBase_refl b)
  | hgroup b cs ih => exact .group (twinBase_refl b).1 (List.forall₂_same.mpr ih)
  | href b w ns ih => exact .ref (twinBase_refl b).1 (List.forall₂_same.mpr ih)
  | hmiss b w => exact .refMissing (twinBase_refl b).1

theorem printed_exact {x y : Flt K} (hx : Spec.Exact12 x) (h : Spec.Printed x y) : y = x := by
  cases x with
  | fin v =>
    obtain ⟨w, rfl, -, hw⟩ := h
    rw [hw hx]
  | _ => exact h

theorem printed_list {xs ys : List (Flt K)} (h : List.Forall₂ Spec.Printed xs ys)
    (hx : ∀ x ∈ xs, Spec.Exact12 x) : ys = xs := by
  induction h with
  | nil => rfl
  | cons h _ ih =>
    rw [printed_exact (hx _ (List.mem_cons_self ..)) h, ih fun x hm => hx x (List.mem_cons_of_mem _ hm)]

/-- Two numbers of nine decimals that are half a unit apart are the same. -/
theorem decimals9_eq {m n : ℕ} (h : |(m : K) / 10 ^ 9 - n / 10 ^ 9| ≤ 1 / 2 / 10 ^ 9) : m = n := by
  rw [← sub_div, abs_div, abs_of_pos (by positivity : (0 : K) < 10 ^ 9),
    div_le_div_iff_of_pos_right (by positivity)] at h
  have h2 : |((m - n : ℤ) : K)| < 1 := by
    push_cast
    exact lt_of_le_of_lt h (by norm_num)
  rw [← Int.cast_abs] at h2
  have h3 : |(m : ℤ) - n| < 1 := by exact_mod_cast h2
  have := Int.abs_lt_one_iff.mp h3
  omega

theorem entry_exact {A : Arith K} {bits : Option (ℕ × ℕ)} {x y : Flt K} (hx : Spec.ExactEntry A bits x)
    (h : Spec.TableValue A bits x y) : y = x := by
  cases bits with
  | some q =>
    obtain ⟨p, w⟩ := q
    exact h.2 hx
  | none =>
    obtain ⟨hd, hf⟩ := hx
    obtain ⟨d, h1, h2, rfl⟩ := h
    have : d = SFlt.ofFlt x := by
      generalize SFlt.ofFlt x = z at hd h1
      cases z with
      | fin s m =>
        cases d with
        | fin s' m' =>
          obtain ⟨rfl, h1⟩ := h1
          obtain ⟨a, rfl⟩ := hd
          obtain ⟨b, rfl⟩ := h2
          rw [decimals9_eq h1]
        | _ => cases h1
      | inf s => cases h1; rfl
      | nan => cases h1; rfl
    rw [this, flt_ofFlt, hf]

theorem table_exact {A : Arith K} {bits : Option (ℕ × ℕ)} {xs ys : List (Flt K)}
    (h : List.Forall₂ (Spec.TableValue A bits) xs ys) (hx : ∀ x ∈ xs, Spec.ExactEntry A bits x) :
    ys = xs := by
  induction h with
  | nil => rfl
  | cons h _ ih =>
    rw [entry_exact (hx _ (List.mem_cons_self ..)) h, ih fun x hm => hx x (List.mem_cons_of_mem _ hm)]

theorem elems_exact {A : Arith K} {es es' : List (Elem K)} (h : List.Forall₂ (Spec.SameElem A) es es')
    (he : ∀ e ∈ es, Spec.ExactElem A e) :
    Spec.tablesOf es' = Spec.tablesOf es ∧ Spec.mapsOf es' = Spec.mapsOf es := by
  induction h with
  | nil => exact ⟨rfl, rfl⟩
  | @cons e e' es es' h _ ih =>
    obtain ⟨i1, i2⟩ := ih fun x hm => he x (List.mem_cons_of_mem _ hm)
    have he := he e (List.mem_cons_self ..)
    cases e with
    | comment t x => cases h; exact ⟨i1, i2⟩
    | info ps => cases h; exact ⟨i1, i2⟩
    | array a =>
      obtain ⟨a', rfl, h1, -, -, -, h2⟩ := h
      refine ⟨?_, i2⟩
      rw [Spec.tablesOf, Spec.tablesOf, i1, h1, table_exact h2 he]
    | indexMap m =>
      obtain ⟨m', rfl, -, h1, h2⟩ := h
      refine ⟨i1, ?_⟩
      rw [Spec.mapsOf, Spec.mapsOf, i2, h2, printed_list h1 he]

theorem sameDict_get {d d' : Dict AVal} (h : Spec.SameDict Eq d d') (k : String) :
    d'.get? k = d.get? k := by
  have h := h k
  generalize d.get? k = o at h
  generalize d'.get? k = o' at h
  cases h with
  | none => rfl
  | some h => rw [h]

theorem sameBase_exact {A : Arith K} {b b' : Base K} (h : Spec.SameBase A b b')
    (hv : ∀ n x, b.values.get? n = some x → Spec.Exact12 x)
    (he : ∀ e ∈ b.elements, Spec.ExactElem A e) : Spec.TwinBase b b' := by
  obtain ⟨h1, h2, -, h4⟩ := h
  obtain ⟨t, m⟩ := elems_exact h4 he
  refine ⟨fun k _ => sameDict_get h1 k, fun k _ => ?_, by rw [t], m⟩
  have h2 := h2 k
  cases hk : b.values.get? k with
  | none => rw [hk] at h2; generalize b'.values.get? k = o at h2; cases h2; rfl
  | some v =>
    have hx := hv k v hk
    rw [hk] at h2
    generalize b'.values.get? k = o at h2
    cases h2 with | some h => rw [printed_exact hx h]

theorem sameKind_exact {k k' : Kind K} (h : Spec.SameKind k k') (hk : Spec.ExactKind k) : k' = k := by
  cases k with
  | cdl cc v =>
    obtain ⟨v', rfl, h1, h2, h3, h4⟩ := h
    obtain ⟨e1, e2⟩ := hk
    obtain ⟨s, o, p, t⟩ := v
    obtain ⟨s', o', p', t'⟩ := v'
    have key : ∀ (a a' : Option (List (Flt K))), Option.Rel (List.Forall₂ Spec.Printed) a a' →
        (∀ l, a = some l → ∀ x ∈ l, Spec.Exact12 x) → a' = a := by
      intro a a' h he
      cases h with
      | none => rfl
      | some h => rw [printed_list h (he _ rfl)]
    have k1 := key _ _ h1 fun l hl => e1 l (.inl hl)
    have k2 := key _ _ h2 fun l hl => e1 l (.inr (.inl hl))
    have k3 := key _ _ h3 fun l hl => e1 l (.inr (.inr hl))
    have k4 : t' = t := by
      cases h4 with
      | none => rfl
      | some h => rw [printed_exact (e2 _ rfl) h]
    cases k1; cases k2; cases k3; cases k4
    rfl
  | exposureContrast e c p =>
    obtain ⟨e', c', p', rfl, h1, h2, h3⟩ := h
    rw [printed_exact hk.1 h1, printed_exact hk.2.1 h2, printed_exact hk.2.2 h3]
  | gamma ps =>
    obtain ⟨ps', rfl, h⟩ := h
    congr 1
    have hk : ∀ p ∈ ps, Spec.Exact12 p.gamma ∧ Spec.Exact12 p.offset := hk
    rename_i hk'
    clear hk'
    induction h with
    | nil => rfl
    | @cons p p' ps ps' h _ ih =>
      rw [ih fun q hq => hk q (List.mem_cons_of_mem _ hq)]
      congr 1
      obtain ⟨a, b, c⟩ := p
      obtain ⟨a', b', c'⟩ := p'
      obtain ⟨h1, h2, h3⟩ := h
      obtain ⟨e1, e2⟩ := hk _ (List.mem_cons_self ..)
      cases printed_exact e1 h1; cases printed_exact e2 h2; cases h3
      rfl
  | log ps =>
    obtain ⟨ps', rfl, h⟩ := h
    congr 1
    have hk : ∀ p ∈ ps, Spec.Exact12 p.gamma ∧ Spec.Exact12 p.refWhite ∧ Spec.Exact12 p.refBlack ∧
      Spec.Exact12 p.highlight ∧ Spec.Exact12 p.shadow := hk
    rename_i hk'
    clear hk'
    induction h with
    | nil => rfl
    | @cons p p' ps ps' h _ ih =>
      rw [ih fun q hq => hk q (List.mem_cons_of_mem _ hq)]
      congr 1
      obtain ⟨a, b, c, d, e, f⟩ := p
      obtain ⟨a', b', c', d', e', f'⟩ := p'
      obtain ⟨h1, h2, h3, h4, h5, h6⟩ := h
      obtain ⟨e1, e2, e3, e4, e5⟩ := hk _ (List.mem_cons_self ..)
      cases printed_exact e1 h1; cases printed_exact e2 h2; cases printed_exact e3 h3
      cases printed_exact e4 h4; cases printed_exact e5 h5; cases h6
      rfl
  | _ => exact h

theorem sameNode_exact {A : Arith K} (n : Node K) : ∀ n', Spec.SameNode A n n' → Spec.TextExact A n →
    Spec.Twin n n' := by
  induction n using Node.ind with
  | hleaf k b =>
    intro n' h he
    cases h with
    | leaf hk hb =>
      cases he with
      | leaf ek ev ee =>
        rw [sameKind_exact hk ek]
        exact .leaf (sameBase_exact hb ev ee)
  | hgroup b cs ih =>
    intro n' h he
    cases h with
    | group hb hc =>
      cases he with
      | group ec =>
        refine .group (fun k _ => sameDict_get hb.1 k) ?_
        clear hb
        induction hc with
        | nil => exact .nil
        | @cons c c' cs cs' h _ ih' =>
          exact .cons (ih c (List.mem_cons_self ..) c' h (ec c (List.mem_cons_self ..)))
            (ih' (fun d hd => ih d (List.mem_cons_of_mem _ hd)) fun d hd => ec d (List.mem_cons_of_mem _ hd))
  | href b w ns ih =>
    intro n' h he
    cases h with
    | ref hb => exact .ref (fun k _ => sameDict_get hb.1 k) (List.forall₂_same.mpr fun n _ => twin_refl n)
  | hmiss b w =>
    intro n' h he
    cases h with
    | refMissing hb => exact .refMissing fun k _ => sameDict_get hb.1 k

/-- A list whose parts have a place in the document and whose numbers survive their text form
processes every image the same after writing and reading.  Not for all lists: see
`C91_false`. -/
theorem C91_partial (A : Arith K) (compat : ℕ) (load : String → Py (Option (List (Node K)))) (l : PList K)
    (hl : Spec.StorableList compat load l) (he : ∀ n ∈ l.processes, Spec.TextExact A n) (gzip : Bool)
    (f : File) (hf : l.writeFile compat false gzip = .ok f) :
    ∃ l', readContents compat (readList A compat load false) f = .ok l' ∧
      ∀ (values : List (Flt K)) (stride : ℕ), processList A compat l'.processes values stride =
        processList A compat l.processes values stride := by
  obtain ⟨l', h1, -, -, -, h2⟩ := C50_file_partial A compat load l hl gzip f hf
  refine ⟨l', h1, fun values stride => C90_twin A compat _ _ ?_ values stride⟩
  generalize l'.processes = ns' at h2
  generalize l.processes = ns at h2 he
  clear h1 hf hl
  induction h2 with
  | nil => exact .nil
  | @cons n n' ns ns' h _ ih =>
    exact .cons (sameNode_exact n n' h (he n (List.mem_cons_self ..)))
      (ih fun m hm => he m (List.mem_cons_of_mem _ hm))

/-- A list with one 1 × 1 matrix. -/
def oneEntry (x : ℚ) : PList ℚ where
  processes := [.leaf .matrix
    { attrs := [("inBitDepth", .str "16f"), ("outBitDepth", .str "16f"), ("id", .str ""), ("name", .str "")]
      elements := [.array { dims := [1, 1], values := [.fin x] }] }]

theorem oneEntry_storable (x : ℚ) (compat : ℕ) (load : String → Py (Option (List (Node ℚ)))) :
    Spec.StorableList compat load (oneEntry x) := by
  refine ⟨List.nodup_nil, by simp [oneEntry], rfl, by simp [oneEntry], ?_⟩
  simp only [oneEntry, List.mem_cons, List.not_mem_nil, or_false, forall_eq]
  refine .leaf trivial (by simp [Spec.AttrsOk, Spec.keysOf, Spec.commonKeys]) (.inl rfl) (.inl rfl) ?_
  simp only [List.mem_cons, List.not_mem_nil, or_false, forall_eq]
  refine .inr (.inl ⟨.inl rfl, _, rfl, ?_, by simp, ⟨1, rfl, by simp⟩, .inl rfl⟩)
  simp [Spec.IntegerOut, Dict.get?]

theorem oneEntry_writes (x : ℚ) (compat : ℕ) : ∃ f, (oneEntry x).writeFile compat false false = .ok f := by
  obtain ⟨y, hy⟩ := C48_writes (K := ℚ) compat (Arr.toS { dims := [1, 1], values := [.fin x] }) 1
    rfl rfl rfl rfl (by norm_num)
  have h : ∃ z, (oneEntry x).write compat false = .ok z := by
    unfold PList.write oneEntry
    simp only [List.mapM_nil, py_pure, py_ok_bind, writeNodes, Node.write, writeBase, py_mapM_cons,
      Elem.write, Arr.write, hy, List.mapM_nil]
    exact ⟨_, rfl⟩
  obtain ⟨z, hz⟩ := h
  exact ⟨_, by unfold PList.writeFile; rw [hz]; rfl⟩

/-- A matrix of dyadic fractions survives. -/
example (load : String → Py (Option (List (Node ℚ)))) :
    Spec.StorableList 0 load (oneEntry (-3 / 8)) ∧
    (∀ n ∈ (oneEntry (-3 / 8)).processes, Spec.TextExact ratArith n) ∧
    ∃ f, (oneEntry (-3 / 8)).writeFile 0 false false = .ok f := by
  refine ⟨oneEntry_storable _ _ _, ?_, oneEntry_writes _ _⟩
  simp only [oneEntry, List.mem_cons, List.not_mem_nil, or_false, forall_eq]
  refine .leaf trivial (by simp [Dict.get?]) ?_
  simp only [List.mem_cons, List.not_mem_nil, or_false, forall_eq, Spec.ExactElem]
  exact ⟨⟨375000000, by norm_num [SFlt.ofFlt]⟩, rfl⟩

theorem oneEntry_read {a' : Arr ℚ}
    (h : Spec.SameArray ratArith { dims := [1, 1], values := [.fin (1 / 10 ^ 10)] } a') :
    a'.dims = [1, 1] ∧ a'.values = [.fin 0] := by
  obtain ⟨h1, -, -, -, h2⟩ := h
  refine ⟨h1, ?_⟩
  generalize a'.values = vs at h2
  cases h2 with
  | cons x t =>
    cases t
    obtain ⟨d, c1, c2, rfl⟩ := x
    have e : SFlt.ofFlt (.fin (1 / 10 ^ 10) : Flt ℚ) = .fin false (1 / 10 ^ 10) := by
      norm_num [SFlt.ofFlt]
    rw [e] at c1
    cases d with
    | fin s m =>
      obtain ⟨rfl, c1⟩ := c1
      obtain ⟨n, rfl⟩ := c2
      have : n = 0 := by
        by_contra hn
        have hn : (1 : ℚ) ≤ n := by exact_mod_cast Nat.one_le_iff_ne_zero.mpr hn
        have := (abs_le.mp c1).1
        norm_num at this
        linarith
      subst this
      simp [SFlt.toFlt, ratArith]
    | _ => cases c1

/-- Writing a list and reading it back can change its colours: a matrix entry of `1e-10`
becomes 0. -/
theorem C91_false (load : String → Py (Option (List (Node ℚ)))) :
    ∃ (l l' : PList ℚ) (f : File), Spec.StorableList 0 load l ∧ l.writeFile 0 false false = .ok f ∧
      readContents 0 (readList ratArith 0 load false) f = .ok l' ∧
      processList ratArith 0 l.processes [.fin 1] 1 = .ok [.fin (1 / 10 ^ 10)] ∧
      processList ratArith 0 l'.processes [.fin 1] 1 = .ok [.fin 0] := by
  obtain ⟨f, hf⟩ := oneEntry_writes (1 / 10 ^ 10) 0
  obtain ⟨l', h1, -, -, -, h2⟩ := C50_file_partial ratArith 0 load _ (oneEntry_storable (1 / 10 ^ 10) 0 load)
    false f hf
  refine ⟨_, l', f, oneEntry_storable _ _ _, hf, h1, by decide +kernel, ?_⟩
  have twin : List.Forall₂ Spec.Twin (oneEntry 0).processes l'.processes := by
    generalize l'.processes = ns at h2
    cases h2 with
    | cons h t =>
      cases t
      refine .cons ?_ .nil
      cases h with
      | @leaf _ _ _ b' hk hb =>
        cases hk
        obtain ⟨g1, g2, -, g4⟩ := hb
        refine .leaf ⟨fun k _ => ?_, fun k _ => ?_, ?_, ?_⟩
        · exact sameDict_get g1 k
        · have g2 := g2 k
          generalize b'.values.get? k = o at g2
          cases g2
          rfl
        all_goals
          generalize b'.elements = es at g4
          cases g4 with
          | cons e t =>
            cases t
            obtain ⟨a', rfl, d⟩ := e
            obtain ⟨d1, d2⟩ := oneEntry_read d
            simp [Spec.tablesOf, Spec.mapsOf, d1, d2]
  rw [C90_twin ratArith 0 _ _ twin]
  decide +kernel

end CLF
