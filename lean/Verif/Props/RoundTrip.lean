import Verif.Lemmas.SelfContained
import Verif.Props.Nodes
import Mathlib.Data.Rat.Floor

/-! # Writing and reading back, self-contained writing -/

set_option linter.unusedSectionVars false

namespace CLF

variable {K : Type} [Field K] [LinearOrder K] [IsStrictOrderedRing K] [FloorRing K]

/-! ### C50 -/

/-- A list whose every part has a place in the document comes back from it the same:
nodes in order, attributes, parameters, tables, descriptions, nested groups.  Not for all
lists: see `C50_false`. -/
theorem C50_partial (A : Arith K) (compat : ℕ) (load : String → Py (Option (List (Node K)))) (l : PList K)
    (hl : Spec.StorableList compat load l) (x : Xml) (hx : l.write compat false = .ok x) (strict : Bool)
    (hs : strict = true → ∀ n ∈ l.processes, ∀ f, Spec.neededFeature (Spec.nameOf n) = some f →
      Spec.enabled compat f) :
    ∃ l', readList A compat load strict x.reparse = .ok l' ∧ Spec.SameList A l l' := by
  obtain ⟨h1, h2, h3, h4, h5⟩ := hl
  unfold PList.write at hx
  obtain ⟨es, g1, g2⟩ := py_bind_eq_ok.mp hx
  obtain ⟨ns, g3, g4⟩ := py_bind_eq_ok.mp g2
  cases g4
  rw [h3, List.map_nil, List.nil_append]
  have hn : List.Forall₂ (NodeBack A compat load) l.processes ns :=
    writeNodes_single compat (some false) _ l.processes
      (fun c hc xs hw => node_back A compat load c _ rfl (h5 c hc) xs hw) ns g3
  obtain ⟨l', e1, e2, e3, e4, e5⟩ := list_back A compat load strict l.attrs l.elements l.processes h1 h2 h4
    es ns g1 hn hs
  refine ⟨l', e1, e2, ?_, ?_, e5⟩
  · intro k; rw [h3, e3]; exact .none
  · rw [e4]
    refine List.forall₂_same.mpr fun e he => ?_
    rcases h4 e he with ⟨t, s, rfl, _⟩ | ⟨ps, rfl, _⟩ <;> rfl

/-- The same for files, plain or gzipped. -/
theorem C50_file_partial (A : Arith K) (compat : ℕ) (load : String → Py (Option (List (Node K)))) (l : PList K)
    (hl : Spec.StorableList compat load l) (gzip : Bool) (f : File)
    (hf : l.writeFile compat false gzip = .ok f) :
    ∃ l', readContents compat (readList A compat load false) f = .ok l' ∧ Spec.SameList A l l' := by
  unfold PList.writeFile at hf
  obtain ⟨x, g1, g2⟩ := py_bind_eq_ok.mp hf
  obtain ⟨l', h1, h2⟩ := C50_partial A compat load l hl x g1 false (by intro h; cases h)
  refine ⟨l', ?_, h2⟩
  cases gzip with
  | false => cases g2; exact h1
  | true =>
    simp only [if_true] at g2
    by_cases hd : hasFeature compat duiker = true
    · rw [if_pos hd] at g2
      cases g2
      simp only [readContents, hd, if_true, h1]
    · rw [if_neg hd] at g2
      cases g2

/-- Four lists that do not come back: a comment in a node is lost, an attribute text
`"True"` turns into a boolean, and documents with an empty parameter list or an empty
index map are written but cannot be read. -/
theorem C50_false (A : Arith K) (compat : ℕ) (load : String → Py (Option (List (Node K)))) :
    (∃ (l l' : PList K) (x : Xml) (n n' : Node K), l.write compat false = .ok x ∧
      readList A compat load false x.reparse = .ok l' ∧ l.processes = [n] ∧ l'.processes = [n'] ∧
      n.base.elements = [.comment "Comment" (some "note")] ∧ n'.base.elements = []) ∧
    (∃ (l l' : PList K) (x : Xml) (n n' : Node K), l.write compat false = .ok x ∧
      readList A compat load false x.reparse = .ok l' ∧ l.processes = [n] ∧ l'.processes = [n'] ∧
      n.base.attrs.get? "name" = some (.str "True") ∧
      n'.base.attrs.get? "name" = some (.bool true)) ∧
    (∃ (l : PList K) (x : Xml) (e : PyErr), l.write compat false = .ok x ∧
      readList A compat load false x.reparse = .error e ∧
      ∃ b v, l.processes = [.leaf (.cdl false v) b] ∧ v.slope = some []) ∧
    (∃ (l : PList K) (x : Xml) (e : PyErr), l.write compat false = .ok x ∧
      readList A compat load false x.reparse = .error e ∧
      ∃ b, l.processes = [.leaf .lut1d b] ∧ .indexMap ⟨0, [], []⟩ ∈ b.elements) := by
  have key : ∀ (x y : Xml) (r : Py (PList K)), x.reparse = y → readList A compat load false y = r →
      readList A compat load false x.reparse = r := by rintro x y r rfl h; exact h
  refine ⟨?_, ?_, ?_, ?_⟩
  · exact ⟨{ processes := [.leaf .range (defaultBase.addElement (.comment "Comment" (some "note")))] },
      { processes := [.leaf .range defaultBase] }, _, _, _, rfl,
      key _ (.mk "ProcessList" [] none [.mk "Range" [("inBitDepth", "16f"), ("outBitDepth", "16f"), ("id", ""), ("name", "")]
        none [.mk "Comment" [] (some "note") []]]) _ rfl rfl,
      rfl, rfl, rfl, rfl⟩
  · exact ⟨{ processes := [.leaf .range (defaultBase.setAttribute "name" (.str "True"))] },
      { processes := [.leaf .range (defaultBase.setAttribute "name" (.bool true))] }, _, _, _, rfl,
      key _ (.mk "ProcessList" [] none [.mk "Range"
        [("inBitDepth", "16f"), ("outBitDepth", "16f"), ("id", ""), ("name", "True")] none []]) _ rfl rfl,
      rfl, rfl, rfl, rfl⟩
  · exact ⟨{ processes := [.leaf (.cdl false { slope := some [] }) defaultBase] }, _, .attributeError, rfl,
      key _ (.mk "ProcessList" [] none [.mk "ASC_CDL" [("inBitDepth", "16f"), ("outBitDepth", "16f"), ("id", ""), ("name", "")]
        none
        [.mk "SOPNode" [] none [.mk "Slope" [] none []], .mk "SatNode" [] none []]]) _ rfl rfl,
      _, _, rfl, rfl⟩
  · exact ⟨{ processes := [.leaf .lut1d (defaultBase.addElement (.indexMap ⟨0, [], []⟩))] }, _,
      .attributeError, rfl,
      key _ (.mk "ProcessList" [] none [.mk "LUT1D" [("inBitDepth", "16f"), ("outBitDepth", "16f"), ("id", ""), ("name", "")]
        none [.mk "IndexMap" [("dim", "0")] none []]]) _ rfl rfl,
      _, rfl, List.mem_singleton.mpr rfl⟩

/-- A document that can be read, but not after being written again. -/
theorem C50_reread_false (A : Arith K) (compat : ℕ) (load : String → Py (Option (List (Node K)))) :
    ∃ (x : Xml) (l : PList K) (y : Xml) (e : PyErr), readList A compat load true x = .ok l ∧
      l.write compat false = .ok y ∧ readList A compat load true y.reparse = .error e := by
  refine ⟨.mk "ProcessList" [] none [.mk "ASC_CDL" [] none
      [.mk "SOPNode" [] none [.mk "Slope" [] (some " ") []]]],
    { processes := [.leaf (.cdl false { slope := some [] }) (defaultBase.setAttribute "style" (.str "Fwd"))] },
    _, .attributeError, rfl, rfl, ?_⟩
  have : ∀ (x y : Xml) (r : Py (PList K)), x.reparse = y → readList A compat load true y = r →
      readList A compat load true x.reparse = r := by rintro x y r rfl h; exact h
  exact this _ (.mk "ProcessList" [] none [.mk "ASC_CDL" [("inBitDepth", "16f"), ("outBitDepth", "16f"),
    ("id", ""), ("name", ""), ("style", "Fwd")] none
    [.mk "SOPNode" [] none [.mk "Slope" [] none []], .mk "SatNode" [] none []]]) _ rfl rfl

/-- A list with a Range, and a CDL and a Gamma in a group. -/
def storedList : PList ℚ where
  attrs := [("id", .str "i"), ("name", .str "n")]
  elements := [.comment "Description" (some "all")]
  processes := [
    .leaf .range { attrs := [("inBitDepth", .str "8i"), ("outBitDepth", .str "10i"), ("id", .str ""),
                             ("name", .str "r"), ("bypass", .bool true)],
                   values := [("minInValue", .fin (1 / 3)), ("maxOutValue", .fin 1)] },
    .group { attrs := [("inBitDepth", .str "10i"), ("outBitDepth", .str "16f"), ("id", .str ""),
                       ("name", .str "g")],
             elements := [.info [("Copyright", some "c")]] } [
      .leaf (.cdl false { slope := some [.fin 1, .fin 2, .fin (3 / 2)], saturation := some (.fin (1 / 2)) })
        { attrs := [("inBitDepth", .str "10i"), ("outBitDepth", .str "16f"), ("id", .str ""),
                    ("name", .str "c"), ("style", .str "Fwd")],
          elements := [.comment "Description" (some "look")] },
      .leaf (.gamma [⟨.fin (12 / 5), .fin 0, some "R"⟩])
        { attrs := [("inBitDepth", .str "16f"), ("outBitDepth", .str "16f"), ("id", .str ""),
                    ("name", .str "c"), ("style", .str "basicFwd")] }]]

example (load : String → Py (Option (List (Node ℚ)))) : Spec.StorableList 3 load storedList ∧
    ∃ x, storedList.write 3 false = .ok x := by
  refine ⟨⟨by decide, by simp [storedList], rfl, ?_, ?_⟩, _, rfl⟩
  · simp [storedList, Spec.InfoElemOk]
  · simp only [storedList, List.mem_cons, List.not_mem_nil, or_false, forall_eq_or_imp, forall_eq]
    refine ⟨.leaf trivial ?_ ?_ (.inl rfl) (by simp), .group ?_ rfl (.inl rfl) ?_ ?_⟩
    · simp [Spec.AttrsOk, Spec.keysOf, Spec.commonKeys]
    · exact .inr ⟨rfl, by decide, by decide⟩
    · simp [Spec.AttrsOk, Spec.commonKeys]
    · simp [Spec.InfoElemOk]
    · simp only [List.mem_cons, List.not_mem_nil, or_false, forall_eq_or_imp, forall_eq]
      refine ⟨.leaf ?_ ?_ (.inl rfl) (.inl rfl) ?_, .leaf trivial ?_ (.inl rfl) (.inl rfl) (by simp)⟩
      · simp [Spec.KindOk]
      · simp [Spec.AttrsOk, Spec.keysOf, Spec.commonKeys]
      · simp [Spec.LeafElemOk, Spec.DescriptionOk]
      · simp [Spec.AttrsOk, Spec.keysOf, Spec.commonKeys]

/-! ### C43 -/

/-- A list whose references stand at its top level, and resolve to nodes without
references, is written self-contained without any Reference; the document can be read
whatever other files hold, and what is read is the list with the references replaced by
what they resolve to, which processes like the original.  Not for all lists: see
`C43_false`. -/
theorem C43_partial (A : Arith K) (hA : Casts A) (compat : ℕ)
    (load : String → Py (Option (List (Node K)))) (l : PList K) (hr : Spec.OnlyTopRefs l.processes)
    (hl : Spec.StorableList compat load { l with processes := Spec.expandRefs l.processes })
    (x : Xml) (hx : l.write compat true = .ok x) :
    ¬ Spec.ContainsRef x.reparse ∧
    (∃ l', (∀ load' : String → Py (Option (List (Node K))),
        readList A compat load' false x.reparse = .ok l') ∧
      Spec.SameList A { l with processes := Spec.expandRefs l.processes } l') ∧
    (Spec.NoBypass l.processes → ∀ (v : List (Flt K)) (stride : ℕ),
      processList A compat (Spec.expandRefs l.processes) v stride =
        processList A compat l.processes v stride) := by
  have hw : PList.write compat false { l with processes := Spec.expandRefs l.processes } = .ok x := by
    rw [← hx]
    unfold PList.write
    simp only
    rw [write_expand compat l.processes hr]
  have hnr : ¬ Spec.ContainsRef x := by
    obtain ⟨_, _, h3, h4, h5⟩ := hl
    unfold PList.write at hw
    obtain ⟨es, g1, g2⟩ := py_bind_eq_ok.mp hw
    obtain ⟨ns, g3, g4⟩ := py_bind_eq_ok.mp g2
    cases g4
    apply noRef_mk _ _ _ _ (by decide)
    intro c hc
    simp only at h3 g1
    rw [h3, List.map_nil, List.nil_append] at hc
    rcases List.mem_append.mp hc with hc | hc
    · obtain ⟨e, he, hw'⟩ : ∃ e ∈ l.elements, Elem.write compat e = .ok c := by
        have hf := py_mapM_eq_ok.mp g1
        obtain ⟨i, hi, rfl⟩ := List.getElem_of_mem hc
        have hi' : i < l.elements.length := by rw [hf.length_eq]; exact hi
        exact ⟨l.elements[i], List.getElem_mem _, (List.forall₂_iff_get.mp hf).2 i hi' hi⟩
      exact noRef_elem compat e c hw' (.inl (h4 e he))
    · obtain ⟨m, hm, zs, h6, h7⟩ := mem_writeNodes compat _ _ ns g3 c hc
      exact noRef_node compat load m _ (h5 m hm) (expand_refFree _ hr m hm) zs h6 c h7
  refine ⟨fun h => hnr ((containsRef_reparse x).mp h), ?_, fun hb v stride =>
    process_expand A hA compat stride l.processes hb v⟩
  obtain ⟨l', h1, h2⟩ := C50_partial A compat load _ hl x hw false (by intro h; cases h)
  refine ⟨l', fun load' => ?_, h2⟩
  rw [← h1]
  apply readList_noRef
  intro c hc h
  exact hnr ((containsRef_reparse x).mp (.inside hc h))

/-- A doubling matrix with the attributes every new node has. -/
def fullDoubler : Node ℚ :=
  .leaf .matrix
    { attrs := [("inBitDepth", .str "32f"), ("outBitDepth", .str "32f"), ("id", .str ""), ("name", .str "")]
      elements := [.array twice] }

/-- A list that refers to a file with a doubling matrix. -/
def referring : PList ℚ where
  attrs := [("id", .str "i")]
  processes := [fullDoubler, .ref { attrs := [("path", .str "m.clf")] } false [fullDoubler]]

theorem fullDoubler_refFree : Spec.RefFree fullDoubler := by
  intro m hm
  rw [within_leaf hm]
  exact ⟨by intros; exact nofun, by intros; exact nofun⟩

/-- The hypotheses hold and the list is not trivial. -/
example (load : String → Py (Option (List (Node ℚ)))) : Casts ratArith ∧
    Spec.OnlyTopRefs referring.processes ∧
    Spec.StorableList 1 load { referring with processes := Spec.expandRefs referring.processes } ∧
    (∃ x, referring.write 1 true = .ok x) ∧ Spec.NoBypass referring.processes ∧
    processList ratArith 1 referring.processes [.fin 1, .fin 2, .fin 3] 3
      = .ok [.fin 4, .fin 8, .fin 12] := by
  have hd : Spec.Storable 1 load fullDoubler := by
    refine .leaf trivial ?_ (.inl rfl) (.inl rfl) ?_
    · simp [Spec.AttrsOk, Spec.keysOf, Spec.commonKeys]
    · intro e he
      rw [List.mem_singleton.mp he]
      refine .inr (.inl ⟨.inl rfl, twice, rfl, ?_, ?_, ⟨3, by decide, by decide⟩, .inl rfl⟩)
      · simp [twice, Spec.IntegerOut, Dict.get?]
      · simp [twice]
  refine ⟨ratArith_casts, ?_, ⟨by decide, by simp [referring], rfl, by simp [referring], ?_⟩,
    ⟨_, rfl⟩, ?_, by decide +kernel⟩
  · simp only [Spec.OnlyTopRefs, referring, List.mem_cons, List.not_mem_nil, or_false, forall_eq_or_imp,
      forall_eq]
    exact ⟨.inl fullDoubler_refFree, .inr ⟨_, _, _, rfl, by simpa using fullDoubler_refFree⟩⟩
  · intro n hn
    have : n = fullDoubler := by simpa [referring, Spec.expandRefs, fullDoubler] using hn
    rw [this]; exact hd
  · intro n hn m hm
    simp only [referring, List.mem_cons, List.not_mem_nil, or_false] at hn
    rcases hn with rfl | rfl
    · rw [within_leaf hm]; rfl
    · cases hm with
      | self => rfl
      | ref h1 h2 => rw [List.mem_singleton.mp h1] at h2; rw [within_leaf h2]; rfl

/-- Lists that stay dependent on other files.  A reference in a group, and one in what a
reference resolves to, are written as Reference elements; without the other files the
document read back processes differently.  A reference that was not found cannot be
written self-contained at all. -/
theorem C43_false :
    (∃ (l l' : PList ℚ) (x : Xml) (b : Base ℚ) (n : Node ℚ), l.write 3 true = .ok x ∧
      l.processes = [.group b [n]] ∧ Spec.ContainsRef x ∧
      readList ratArith 3 (fun _ => .ok none) false x.reparse = .ok l' ∧
      processList ratArith 3 l.processes [.fin 1, .fin 2, .fin 3] 3 = .ok [.fin 2, .fin 4, .fin 6] ∧
      processList ratArith 3 l'.processes [.fin 1, .fin 2, .fin 3] 3 = .ok [.fin 1, .fin 2, .fin 3]) ∧
    (∃ (l l' : PList ℚ) (x : Xml) (b b' : Base ℚ) (n : Node ℚ), l.write 3 true = .ok x ∧
      l.processes = [.ref b false [.ref b' false [n]]] ∧ Spec.ContainsRef x ∧
      readList ratArith 3 (fun _ => .ok none) false x.reparse = .ok l' ∧
      processList ratArith 3 l.processes [.fin 1, .fin 2, .fin 3] 3 = .ok [.fin 2, .fin 4, .fin 6] ∧
      processList ratArith 3 l'.processes [.fin 1, .fin 2, .fin 3] 3 = .ok [.fin 1, .fin 2, .fin 3]) ∧
    (∃ (l : PList ℚ) (b : Base ℚ), l.processes = [.refMissing b false] ∧
      l.write 3 true = .error .attributeError) := by
  refine ⟨?_, ?_, ?_⟩
  · refine ⟨{ processes := [.group defaultBase [.ref { attrs := [("path", .str "m.clf")] } false [doubler]]] },
      { processes := [.group defaultBase [.refMissing (defaultBase.setAttribute "path" (.str "m.clf")) false]] },
      _, _, _, rfl, rfl, ?_, rfl, by decide +kernel, by decide +kernel⟩
    exact .inside (List.mem_singleton.mpr rfl) (.inside (List.mem_singleton.mpr rfl)
      (.here ((named_iff _ _).mpr (by decide))))
  · refine ⟨{ processes := [.ref defaultBase false
        [.ref { attrs := [("path", .str "m.clf")] } false [doubler]]] },
      { processes := [.refMissing (defaultBase.setAttribute "path" (.str "m.clf")) false] },
      _, _, _, _, rfl, rfl, ?_, rfl, by decide +kernel, by decide +kernel⟩
    exact .inside (List.mem_singleton.mpr rfl) (.here ((named_iff _ _).mpr (by decide)))
  · exact ⟨{ processes := [.refMissing defaultBase false] }, _, rfl, rfl⟩

end CLF
