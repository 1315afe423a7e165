import Verif.Lemmas.XmlSpaces
import Verif.Props.RoundTrip

/-! # Documents and process lists as the characters of files -/

set_option linter.unusedSectionVars false

namespace CLF

variable {K : Type} [Field K] [LinearOrder K] [IsStrictOrderedRing K] [FloorRing K]

/-! ### C116 -/

/-- The text written for a document of plain names and allowed characters is read as the document:
the same elements in the same order with the same attributes and texts.  White space is not kept in
attributes, line ends are not kept in texts, and elements with children are given white space: see
`C116_false`. -/
theorem C116_partial (x : Xml) (hn : Spec.WellNamed x) (hc : Spec.Everywhere Spec.Allowed x) :
    ∃ t y, XmlText.xmlPrettify x = .ok t ∧ XmlText.parse t = .ok y ∧ Spec.ReadAs x y :=
  XmlText.prettify_parse x hn hc

/-- A line feed in an attribute comes back as a space, a carriage return in a text as a line feed,
and the text of an element with children comes back longer. -/
theorem C116_false :
    (∃ t, XmlText.xmlPrettify (.mk "a" [("k", "1\n2")] none []) = .ok t ∧
      XmlText.parse t = .ok (.mk "a" [("k", "1 2")] none [])) ∧
    (∃ t, XmlText.xmlPrettify (.mk "a" [] (some "1\r2") []) = .ok t ∧
      XmlText.parse t = .ok (.mk "a" [] (some "1\n2") [])) ∧
    ∃ t, XmlText.xmlPrettify (.mk "a" [] (some "1") [.mk "b" [] none []]) = .ok t ∧
      XmlText.parse t = .ok (.mk "a" [] (some "\n\t1\n\t") [.mk "b" [] none []]) :=
  ⟨⟨"<?xml version=\"1.0\" ?>\n<a k=\"1\n2\"/>\n".toList, by decide +kernel, XmlText.parse_eq _ _ (by decide +kernel)⟩,
    ⟨"<?xml version=\"1.0\" ?>\n<a>1\n2</a>\n".toList, by decide +kernel, XmlText.parse_eq _ _ (by decide +kernel)⟩,
    "<?xml version=\"1.0\" ?>\n<a>\n\t1\n\t<b/>\n</a>\n".toList, by decide +kernel,
    XmlText.parse_eq _ _ (by decide +kernel)⟩

theorem wellNamed_small : Spec.WellNamed (.mk "Range" [("id", "<\"&\">")] none
    [.mk "minInValue" [] (some "0.5") [], .mk "Description" [] (some "a < b\n\tand c") []]) := by
  have hp : ∀ s ∈ ["Range", "id", "minInValue", "Description"], Spec.PlainName s := by
    have key : ∀ s ∈ ["Range", "id", "minInValue", "Description"],
        (s.toList.all fun c => (65 ≤ c.toNat && c.toNat ≤ 90) || (97 ≤ c.toNat && c.toNat ≤ 122)
          || c = '_' || (48 ≤ c.toNat && c.toNat ≤ 57)) = true ∧
        (s.toList.head?.any fun c => (65 ≤ c.toNat && c.toNat ≤ 90) || (97 ≤ c.toNat && c.toNat ≤ 122)) = true ∧
        s ≠ "xmlns" := by decide +kernel
    intro s hs
    obtain ⟨h1, h2, h3⟩ := key s hs
    exact (asciiName_of s h1 h2 h3).1
  refine .mk (hp _ (by simp)) ?_ (by simp) (by simp) ?_
  · simp only [List.mem_singleton, forall_eq]
    exact ⟨hp _ (by simp), by decide⟩
  · simp only [List.mem_cons, List.not_mem_nil, or_false, forall_eq_or_imp, forall_eq]
    exact ⟨.mk (hp _ (by simp)) (by simp) (by simp) (by simp) (by simp),
      .mk (hp _ (by simp)) (by simp) (by simp) (by simp) (by simp)⟩

theorem allowed_small : Spec.Everywhere Spec.Allowed (.mk "Range" [("id", "<\"&\">")] none
    [.mk "minInValue" [] (some "0.5") [], .mk "Description" [] (some "a < b\n\tand c") []]) := by
  refine .mk (by unfold Spec.Allowed; decide) ?_ (by unfold Spec.Allowed; decide) ?_
  · simp only [List.mem_singleton, forall_eq]
    exact ⟨by unfold Spec.Allowed; decide, by unfold Spec.Allowed; decide⟩
  · simp only [List.mem_cons, List.not_mem_nil, or_false, forall_eq_or_imp, forall_eq]
    exact ⟨.mk (by unfold Spec.Allowed; decide) (by simp) (by unfold Spec.Allowed; decide) (by simp),
      .mk (by unfold Spec.Allowed; decide) (by simp) (by unfold Spec.Allowed; decide) (by simp)⟩

example : ∃ t y, XmlText.xmlPrettify (.mk "Range" [("id", "<\"&\">")] none
      [.mk "minInValue" [] (some "0.5") [], .mk "Description" [] (some "a < b\n\tand c") []]) = .ok t ∧
    XmlText.parse t = .ok y ∧ Spec.ReadAs (.mk "Range" [("id", "<\"&\">")] none
      [.mk "minInValue" [] (some "0.5") [], .mk "Description" [] (some "a < b\n\tand c") []]) y :=
  C116_partial _ wellNamed_small allowed_small

/-! ### C117 -/

/-- A list that can be stored, in plain text, is written to the file, and what is read from the
characters of the file is the same list.  Not for all texts: see `C117_false`. -/
theorem C117_partial (A : Arith K) (compat : ℕ) (load : String → Py (Option (List (Node K)))) (l : PList K)
    (hl : Spec.StorableList compat load l) (hp : Spec.PlainList l) (x : Xml) (hx : l.write compat false = .ok x)
    (old : Option Txt) (strict : Bool)
    (hs : strict = true → ∀ n ∈ l.processes, ∀ f, Spec.neededFeature (Spec.nameOf n) = some f →
      Spec.enabled compat f) :
    ∃ t l', l.storeText compat false old = (some t, .ok ()) ∧
      readText A compat load strict t = .ok l' ∧ Spec.SameList A l l' := by
  have htidy := tidy_list compat load l hl hp x hx
  have hn := tidy_wellNamed x htidy
  have hc : Spec.Everywhere Spec.Allowed x := tidy_everywhere _ (by
    rintro c (rfl | rfl | h)
    · exact .inl rfl
    · exact .inr (.inl rfl)
    · right; right; right; omega) x htidy
  have ha : Spec.Everywhere (fun c => c.toNat < 128) x := tidy_everywhere _ (by
    rintro c (rfl | rfl | h)
    · decide
    · decide
    · omega) x htidy
  obtain ⟨t, y, h1, h2, h3⟩ := XmlText.prettify_parse x hn hc
  obtain ⟨l1, g1, g2⟩ := C50_partial A compat load l hl x hx strict hs
  have hnear := readList_near A compat load strict _ _ (near_readAs x htidy y h3)
  rw [g1] at hnear
  cases hr : readList A compat load strict y with
  | error e => rw [hr] at hnear; exact hnear.elim
  | ok l2 =>
    rw [hr] at hnear
    refine ⟨t, l2, ?_, ?_, sameList_eqv A l l1 l2 g2 hnear⟩
    · unfold PList.storeText
      rw [hx]
      show (match XmlText.xmlPrettify x with | .error e => _ | .ok t => _) = _
      rw [h1]
      simp only
      rw [if_pos ((XmlText.prettify_ascii x hn hc t h1).mpr ha)]
    · unfold readText
      rw [h2]
      exact hr

theorem storeText_of (compat : ℕ) (selfContained : Bool) (l : PList K) (x : Xml)
    (hx : l.write compat selfContained = .ok x) (old : Option Txt) (t : Txt) (h : XmlText.xmlPrettify x = .ok t)
    (ha : XmlText.ascii t = true) : l.storeText compat selfContained old = (some t, .ok ()) := by
  unfold PList.storeText
  rw [hx]
  show (match XmlText.xmlPrettify x with | .error e => _ | .ok t => _) = _
  rw [h]
  simp only
  rw [if_pos ha]

theorem storeText_emptied (compat : ℕ) (selfContained : Bool) (l : PList K) (x : Xml)
    (hx : l.write compat selfContained = .ok x) (old : Option Txt) (t : Txt) (h : XmlText.xmlPrettify x = .ok t)
    (ha : XmlText.ascii t = false) : l.storeText compat selfContained old = (some [], .error .valueError) := by
  unfold PList.storeText
  rw [hx]
  show (match XmlText.xmlPrettify x with | .error e => _ | .ok t => _) = _
  rw [h]
  simp only
  rw [if_neg (by rw [ha]; decide)]

/-- A carriage return in a description comes back as a line feed, though the list can be stored. -/
theorem C117_false (A : Arith K) (compat : ℕ) (load : String → Py (Option (List (Node K)))) :
    ∃ (l l' : PList K) (t : Txt), Spec.StorableList compat load l ∧
      l.storeText compat false none = (some t, .ok ()) ∧ readText A compat load true t = .ok l' ∧
      l.elements = [.comment "Description" (some "a\rb")] ∧
      l'.elements = [.comment "Description" (some "a\nb")] := by
  refine ⟨{ attrs := [], elements := [.comment "Description" (some "a\rb")], processes := [] },
    { attrs := [], elements := [.comment "Description" (some "a\nb")], processes := [] },
    "<?xml version=\"1.0\" ?>\n<ProcessList>\n\t<Description>a\nb</Description>\n</ProcessList>\n".toList,
    ?_, ?_, ?_, rfl, rfl⟩
  · refine ⟨by simp, by simp, rfl, ?_, by simp⟩
    simp [Spec.InfoElemOk]
  · exact storeText_of _ _ _ (.mk "ProcessList" [] none [.mk "Description" [] (some "a\rb") []]) rfl none _
      (by decide +kernel) (by decide +kernel)
  · unfold readText
    rw [XmlText.parse_eq _ (.mk "ProcessList" [] (some "\n\t") [.mk "Description" [] (some "a\nb") []]) (by decide +kernel)]
    rfl

theorem plainAttrs_of (d : Dict AVal) (h : ∀ kv ∈ d, kv.1 ∈ "id" :: "name" :: "inBitDepth" :: "outBitDepth" ::
    "bypass" :: "style" :: [] ∧ ∀ s, kv.2 = .str s → Spec.Line s) : Spec.PlainAttrs d := by
  intro kv hkv
  refine ⟨?_, (h kv hkv).2⟩
  have key : ∀ s ∈ "id" :: "name" :: "inBitDepth" :: "outBitDepth" :: "bypass" :: "style" :: [],
        (s.toList.all fun c => (65 ≤ c.toNat && c.toNat ≤ 90) || (97 ≤ c.toNat && c.toNat ≤ 122)
          || c = '_' || (48 ≤ c.toNat && c.toNat ≤ 57)) = true ∧
        (s.toList.head?.any fun c => (65 ≤ c.toNat && c.toNat ≤ 90) || (97 ≤ c.toNat && c.toNat ≤ 122)) = true ∧
        s ≠ "xmlns" := by decide +kernel
  obtain ⟨h1, h2, h3⟩ := key _ (h kv hkv).1
  exact asciiName_of _ h1 h2 h3

example : Spec.PlainList storedList := by
  have hl : ∀ s ∈ ["i", "n", "8i", "10i", "", "r", "16f", "g", "c", "Fwd", "basicFwd", "R"], Spec.Line s := by
    unfold Spec.Line; decide
  have hL : ∀ s ∈ ["all", "c", "look"], Spec.Lines s := by unfold Spec.Lines; decide
  refine ⟨plainAttrs_of _ ?_, ?_, ?_⟩
  · simp [storedList, hl]
  · simp [storedList, Spec.PlainElem, hL]
  · simp only [storedList, List.mem_cons, List.not_mem_nil, or_false, forall_eq_or_imp, forall_eq]
    refine ⟨.leaf trivial ⟨plainAttrs_of _ ?_, ?_, ?_⟩, .group ⟨plainAttrs_of _ ?_, ?_, ?_⟩ ?_⟩
    · simp [hl]
    · simp
    · simp
    · simp [hl]
    · simp
    · simp [Spec.PlainElem, hL]
    · simp only [List.mem_cons, List.not_mem_nil, or_false, forall_eq_or_imp, forall_eq]
      refine ⟨.leaf trivial ⟨plainAttrs_of _ ?_, ?_, ?_⟩, .leaf ?_ ⟨plainAttrs_of _ ?_, ?_, ?_⟩⟩
      · simp [hl]
      · simp
      · simp [Spec.PlainElem, hL]
      · simp [Spec.PlainKind, hl]
      · simp [hl]
      · simp
      · simp

/-! ### C118 -/

/-- What a call that could make its document does to the file: with only ASCII characters the text
is stored; otherwise the call fails and the file is empty. -/
theorem C118_partial (compat : ℕ) (selfContained : Bool) (l : PList K) (x : Xml)
    (hx : l.write compat selfContained = .ok x) (hn : Spec.WellNamed x) (hc : Spec.Everywhere Spec.Allowed x)
    (old : Option Txt) :
    (Spec.Everywhere (fun c => c.toNat < 128) x → ∃ t y, l.storeText compat selfContained old = (some t, .ok ()) ∧
      XmlText.parse t = .ok y ∧ Spec.ReadAs x y) ∧
    (¬ Spec.Everywhere (fun c => c.toNat < 128) x →
      l.storeText compat selfContained old = (some [], .error .valueError)) := by
  obtain ⟨t, y, h1, h2, h3⟩ := XmlText.prettify_parse x hn hc
  have ha := XmlText.prettify_ascii x hn hc t h1
  have hst : l.storeText compat selfContained old =
      if XmlText.ascii t then (some t, .ok ()) else (some [], .error .valueError) := by
    unfold PList.storeText
    rw [hx]
    show (match XmlText.xmlPrettify x with | .error e => _ | .ok t => _) = _
    rw [h1]
  rw [hst]
  constructor
  · intro h
    exact ⟨t, y, by rw [if_pos (ha.mpr h)], h2, h3⟩
  · intro h
    rw [if_neg fun e => h (ha.mp e)]

/-- A failing call leaves the file as it was or empties it. -/
theorem C118_kept_or_emptied (compat : ℕ) (selfContained : Bool) (l : PList K) (old f : Option Txt) (e : PyErr)
    (h : l.storeText compat selfContained old = (f, .error e)) : f = old ∨ f = some [] ∧ e = .valueError := by
  unfold PList.storeText at h
  split at h
  · cases h; exact .inl rfl
  · split at h
    · cases h
    · cases h; exact .inr ⟨rfl, rfl⟩

/-- A description with an accent: the call fails and what the file held is lost. -/
theorem C118_false (compat : ℕ) : ∃ (l : PList K) (e : PyErr),
    l.elements = [.comment "Description" (some "caf\u00e9")] ∧
      l.storeText compat false (some ['o', 'l', 'd']) = (some [], .error e) :=
  ⟨{ attrs := [], elements := [.comment "Description" (some "caf\u00e9")], processes := [] }, .valueError, rfl,
    storeText_emptied _ _ _ (.mk "ProcessList" [] none [.mk "Description" [] (some "caf\u00e9") []]) rfl _
      "<?xml version=\"1.0\" ?>\n<ProcessList>\n\t<Description>caf\u00e9</Description>\n</ProcessList>\n".toList
      (by decide +kernel) (by decide +kernel)⟩

/-! ### C119 -/

/-- A list with a character that XML does not allow is refused before the file is touched. -/
theorem C119_refused (compat : ℕ) (selfContained : Bool) (l : PList K) (x : Xml)
    (hx : l.write compat selfContained = .ok x) (hc : ¬ Spec.Everywhere Spec.Allowed x) (old : Option Txt) :
    l.storeText compat selfContained old = (old, .error .parseError) := by
  unfold PList.storeText
  rw [hx]
  show (match XmlText.xmlPrettify x with | .error e => _ | .ok t => _) = _
  rw [XmlText.prettify_refuses x hc]

example : ∃ x, ({ attrs := [], elements := [.comment "Description" (some "a\x00b")], processes := [] } : PList ℚ).write
    1 false = .ok x ∧ ¬ Spec.Everywhere Spec.Allowed x := by
  refine ⟨_, rfl, ?_⟩
  rintro ⟨_, _, _, h⟩
  have h := h (.mk "Description" [] (some "a\x00b") []) (List.mem_singleton.mpr rfl)
  cases h with
  | mk _ _ h _ => exact absurd h (by unfold Spec.Allowed; decide)

/-- The calls that succeed leave a file from which a document is read. -/
theorem C119_readable (compat : ℕ) (selfContained : Bool) (l : PList K) (x : Xml)
    (hx : l.write compat selfContained = .ok x) (hn : Spec.WellNamed x) (old f : Option Txt)
    (h : l.storeText compat selfContained old = (f, .ok ())) :
    ∃ t y, f = some t ∧ XmlText.parse t = .ok y ∧ Spec.ReadAs x y := by
  by_cases hc : Spec.Everywhere Spec.Allowed x
  · obtain ⟨h1, h2⟩ := C118_partial compat selfContained l x hx hn hc old
    by_cases ha : Spec.Everywhere (fun c => c.toNat < 128) x
    · obtain ⟨t, y, g1, g2, g3⟩ := h1 ha
      rw [g1] at h
      cases h
      exact ⟨t, y, rfl, g2, g3⟩
    · rw [h2 ha] at h; cases h
  · rw [C119_refused compat selfContained l x hx hc old] at h; cases h

/-! ### C120 -/

/-- A file reads the same with any line ends, even mixed ones. -/
theorem C120_line_ends (A : Arith K) (compat : ℕ) (load : String → Py (Option (List (Node K)))) (strict : Bool)
    (t u : Txt) (h : Spec.UnixLines t u) : readText A compat load strict t = readText A compat load strict u := by
  have e := XmlText.unixLines_unique h
  have h2 : XmlText.normEnds u = u := XmlText.normEnds_id u (by rw [e]; exact XmlText.normEnds_noCr t)
  unfold readText XmlText.parse XmlText.parseDom
  rw [h2, ← e]

example : Spec.UnixLines "<a>\r\n1\r2\n</a>".toList "<a>\n1\n2\n</a>".toList := by
  rw [show "<a>\n1\n2\n</a>".toList = XmlText.normEnds "<a>\r\n1\r2\n</a>".toList by decide]
  exact XmlText.unixLines_normEnds _

/-! ### C121 -/

/-- Declaring a namespace in the first tag of a written file changes nothing that is read. -/
theorem C121_namespace (A : Arith K) (compat : ℕ) (load : String → Py (Option (List (Node K)))) (strict : Bool)
    (x : Xml) (hn : Spec.WellNamed x) (hc : Spec.Everywhere Spec.Allowed x) (u t t' : Txt) (hu : Spec.SpaceName u)
    (ht : XmlText.xmlPrettify x = .ok t) (hd : Spec.Declares x.tag.toList u t t') :
    readText A compat load strict t' = readText A compat load strict t := by
  obtain ⟨y, y', h1, h2, h3⟩ := XmlText.parse_space x hn hc u t t' hu ht hd
  unfold readText
  rw [h1, h2]
  show readList A compat load strict y' = readList A compat load strict y
  obtain ⟨_, g2, g3, g4⟩ := (alike_iff _ _).mp h3
  cases y with
  | mk ty ay sy cy =>
    cases y' with
    | mk ty' ay' sy' cy' =>
      have g2 : ay = ay' := g2
      have g3 : sy = sy' := g3
      subst g2 g3
      exact (readList_alike A compat load strict ty ty' ay sy g4).symm

example : Spec.SpaceName "urn:NATAS:AMPAS:LUT:v2.0".toList ∧
    ∃ t, XmlText.xmlPrettify (.mk "ProcessList" [("id", "1")] none []) = .ok t ∧
      Spec.Declares "ProcessList".toList "urn:NATAS:AMPAS:LUT:v2.0".toList t
        "<?xml version=\"1.0\" ?>\n<ProcessList xmlns=\"urn:NATAS:AMPAS:LUT:v2.0\" id=\"1\"/>\n".toList := by
  refine ⟨⟨by decide +kernel, by decide +kernel⟩, "<?xml version=\"1.0\" ?>\n<ProcessList id=\"1\"/>\n".toList, by decide +kernel,
    " id=\"1\"/>\n".toList, by decide +kernel, by decide +kernel⟩

end CLF
