import Verif.Lemmas.ReadRel
import Mathlib.Data.Rat.Floor

/-! # Reading documents -/

set_option linter.unusedSectionVars false

namespace CLF

variable {K : Type} [Field K] [LinearOrder K] [IsStrictOrderedRing K] [FloorRing K]

/-- A document with one ordinary node, for the examples. -/
def exRange : Xml := .mk "{urn:x}Range" [("inBitDepth", "8i")] none
  [.mk "minInValue" [] (some "0.25") [], .mk "Description" [] (some "d") []]

/-! ### C70 -/

/-- Every tag has exactly one element name, and the reader computes it. -/
theorem C70_name (tag name : String) : Spec.Named tag name ↔ elementType tag = name := by
  rw [named_iff]; exact ⟨Eq.symm, Eq.symm⟩

example : Spec.Named "{urn:NATAS:AMPAS:LUT:v2.0}ASC_CDL" "ASCCDL" :=
  ⟨"ASC_CDL".toList, .inl ⟨"{urn:NATAS:AMPAS:LUT:v2.0".toList, by decide, by decide⟩, by decide⟩
example : elementType "ASC-CDL" = "ASCCDL" := by decide

/-- Documents that differ only in namespaces, hyphens and underscores read alike; the
root's own tag does not matter at all. -/
theorem C70_alike (A : Arith K) (compat : ℕ) (load : String → Py (Option (List (Node K))))
    (strict : Bool) (t t' : String) (attrs : Dict String) (text : Option String) (cs cs' : List Xml)
    (h : List.Forall₂ Spec.Alike cs cs') :
    readList A compat load strict (.mk t attrs text cs) =
      readList A compat load strict (.mk t' attrs text cs') :=
  readList_alike A compat load strict t t' attrs text h

example : Spec.Alike (.mk "{urn:x}ASC_CDL" [] none [.mk "{urn:x}SOPNode" [] none []])
    (.mk "ASC-CDL" [] none [.mk "SOP_Node" [] none []]) := by
  rw [alike_iff]
  refine ⟨by decide, rfl, rfl, .cons ?_ .nil⟩
  rw [alike_iff]
  exact ⟨by decide, rfl, rfl, .nil⟩

/-! ### C03 -/

/-- Strict reading succeeds only if every top-level element is known and enabled. -/
theorem C03_admits (A : Arith K) (compat : ℕ) (load : String → Py (Option (List (Node K))))
    (x : Xml) (l : PList K) (h : readList A compat load true x = .ok l) :
    ∀ c ∈ x.children, Spec.Admissible compat c.tag := by
  intro c hc
  obtain ⟨h1, h2⟩ := ((readList_strict _ _ _ _ _).mp h).2 c hc
  rw [admissible_iff]
  exact ⟨h1.imp (·.1) id, h2⟩

example (A : Arith ℚ) (load : String → Py (Option (List (Node ℚ)))) :
    ∃ l, readList A 3 load true (.mk "ProcessList" [] none [exRange,
      .mk "Group" [] none [exRange]]) = .ok l := ⟨_, rfl⟩

/-- The first unknown element is an error of its own. -/
theorem C03_unknown (A : Arith K) (compat : ℕ) (load : String → Py (Option (List (Node K))))
    (tag : String) (attrs : Dict String) (text : Option String) (pre post : List Xml) (c : Xml)
    (l : PList K) (hpre : readList A compat load true (.mk tag attrs text pre) = .ok l)
    (hc : ∀ name, Spec.Named c.tag name → name ∉ Spec.nodeNames ∧ name ∉ Spec.infoNames) :
    readList A compat load true (.mk tag attrs text (pre ++ c :: post)) =
      .error .unknownProcessNode := by
  have h1 := hc _ ((named_iff _ _).mpr rfl)
  have h2 : classOf (K := K) (elementType c.tag) = none :=
    (classOf_none _).mpr (by rintro (h | h); exacts [h1.1 h, h1.2 h])
  unfold readList at hpre ⊢
  simp only [Xml.children, Xml.attrs] at hpre ⊢
  rw [List.foldlM_append, hpre, py_ok_bind, List.foldlM_cons]
  have h3 : readListStep A compat load true l c = .error .unknownProcessNode := by
    unfold readListStep; simp only [h2]; rfl
  rw [h3]; rfl

example (A : Arith ℚ) (load : String → Py (Option (List (Node ℚ)))) :
    readList A 3 load true (.mk "ProcessList" [] none [exRange, .mk "LUT2D" [] none [], exRange]) =
      .error .unknownProcessNode := rfl

/-- So is the first node of a disabled extension. -/
theorem C03_disabled (A : Arith K) (compat : ℕ) (load : String → Py (Option (List (Node K))))
    (tag : String) (attrs : Dict String) (text : Option String) (pre post : List Xml) (c : Xml)
    (l : PList K) (hpre : readList A compat load true (.mk tag attrs text pre) = .ok l)
    (name : String) (f : ℕ) (hn : Spec.Named c.tag name) (hf : Spec.neededFeature name = some f)
    (hd : ¬ Spec.enabled compat f) (n : Node K) (hread : readNode A compat load true c = .ok n) :
    readList A compat load true (.mk tag attrs text (pre ++ c :: post)) =
      .error .unsupportedExtension := by
  rw [named_iff] at hn
  subst hn
  rw [enabled_iff] at hd
  rw [← vendorOf_eq] at hf
  unfold readList at hpre ⊢
  simp only [Xml.children, Xml.attrs] at hpre ⊢
  rw [List.foldlM_append, hpre, py_ok_bind, List.foldlM_cons]
  have h3 : readListStep A compat load true l c = .error .unsupportedExtension := by
    unfold readListStep
    cases h2 : classOf (K := K) (elementType c.tag) with
    | none =>
      rw [readNode_mk, h2] at hread
      cases hread
    | some cls =>
      rcases classOf_isNode _ _ h2 with ⟨h1, _⟩ | ⟨_, h1⟩
      · simp only [h2, h1, if_true, hread, py_ok_bind, hf]
        rw [if_pos (by simpa using hd)]
      · rw [vendorOf_info _ h1] at hf; cases hf
  rw [h3]; rfl

example (A : Arith ℚ) (load : String → Py (Option (List (Node ℚ)))) :
    readList A 2 load true (.mk "ProcessList" [] none [exRange, .mk "Gamma" [] none [], exRange]) =
      .error .unsupportedExtension := rfl

/-- Any violation makes strict reading fail. -/
theorem C03_rejects (A : Arith K) (compat : ℕ) (load : String → Py (Option (List (Node K))))
    (x c : Xml) (hc : c ∈ x.children) (hbad : ¬ Spec.Admissible compat c.tag) :
    ∃ e, readList A compat load true x = .error e := by
  cases h : readList A compat load true x with
  | error e => exact ⟨e, rfl⟩
  | ok l => exact absurd (C03_admits A compat load x l h c hc) hbad

example : ¬ Spec.Admissible 2 "Log" := by
  rw [admissible_iff]
  intro h
  have := h.2 1 (by decide)
  exact absurd this (by decide)

/-! ### C04 -/

/-- Strict reading does not look inside groups: an unknown and a disabled element in a
group are accepted. -/
theorem C04_false :
    ∃ x c d : Xml, Spec.Member x c ∧ ¬ Spec.Admissible 2 c.tag ∧ Spec.Member x d ∧
      ¬ Spec.Admissible 2 d.tag ∧
      ∀ (A : Arith ℚ) (load : String → Py (Option (List (Node ℚ)))),
        ∃ l, readList A 2 load true x = .ok l := by
  have hg : Spec.Named "Group" "Group" := (named_iff _ _).mpr (by decide)
  refine ⟨.mk "ProcessList" [] none
    [.mk "Group" [] none [.mk "LUT2D" [] none [], .mk "Gamma" [] none []]],
    .mk "LUT2D" [] none [], .mk "Gamma" [] none [],
    .nested (.top (List.mem_singleton.mpr rfl)) hg (List.mem_cons_self ..), ?_,
    .nested (.top (List.mem_singleton.mpr rfl)) hg (List.mem_cons_of_mem _ (List.mem_cons_self ..)),
    ?_, fun A load => ⟨_, rfl⟩⟩
  · rw [admissible_iff]
    intro h
    exact absurd h.1 (by decide)
  · rw [admissible_iff]
    intro h
    exact absurd (h.2 1 (by decide)) (by decide)

/-- What strict reading does check: it succeeds exactly when plain reading does, every
top-level element is known and enabled, and no top-level node has dynamic parameters that
are disabled.  The result is the same.  Missing: elements inside groups and in referenced
files. -/
theorem C04_partial (A : Arith K) (compat : ℕ) (load : String → Py (Option (List (Node K))))
    (x : Xml) (l : PList K) : readList A compat load true x = .ok l ↔
      readList A compat load false x = .ok l ∧ (∀ c ∈ x.children, Spec.Admissible compat c.tag) ∧
      ∀ c ∈ x.children, (∃ name ∈ Spec.nodeNames, Spec.Named c.tag name) → Spec.ParamsOk compat c := by
  rw [readList_strict]
  have hd : ∀ c : Xml, (∀ d ∈ c.children, dynOk compat d) ↔ Spec.ParamsOk compat c := by
    intro c
    unfold Spec.ParamsOk dynOk
    rw [enabled_iff]
    have e : hasFeature compat autodesk = hasFeature compat 1 := rfl
    rw [e]
    constructor
    · intro h
      by_cases hf : hasFeature compat 1 = true
      · exact .inl hf
      · refine .inr fun d hd hn => ?_
        rw [named_iff] at hn
        rcases h d hd with h | h
        · exact hf h
        · exact h hn.symm
    · rintro (h | h) d hd
      · exact .inl h
      · refine .inr fun hn => h d hd ?_
        rw [named_iff]; exact hn.symm
  refine and_congr_right fun _ => ?_
  constructor
  · intro h
    refine ⟨fun c hc => ?_, fun c hc hn => ?_⟩
    · rw [admissible_iff]; exact ⟨(h c hc).1.imp (·.1) id, (h c hc).2⟩
    · obtain ⟨name, h1, h2⟩ := hn
      rw [named_iff] at h2
      subst h2
      rcases (h c hc).1 with h3 | h3
      · exact (hd c).mp h3.2
      · exact absurd h3 (nodeNames_infoNames _ h1)
  · rintro ⟨h1, h2⟩ c hc
    have h3 := (admissible_iff _ _).mp (h1 c hc)
    refine ⟨?_, h3.2⟩
    rcases h3.1 with h4 | h4
    · exact .inl ⟨h4, (hd c).mpr (h2 c hc ⟨_, h4, (named_iff _ _).mpr rfl⟩)⟩
    · exact .inr h4

example (A : Arith ℚ) (load : String → Py (Option (List (Node ℚ)))) :
    readList A 2 load true (.mk "ProcessList" [] none
      [.mk "Matrix" [] none [.mk "DynamicParameter" [("param", "x")] none []]]) =
      .error .unsupportedExtension := rfl

/-! ### C05 -/

open Classical in
/-- Plain reading keeps the known nodes, in order, and the comments and descriptors, in
order, under every mask; it fails exactly when one of the known nodes cannot be read. -/
theorem C05_order (A : Arith K) (compat : ℕ) (load : String → Py (Option (List (Node K))))
    (x : Xml) (ns : List (Node K)) :
    (∃ l, readList A compat load false x = .ok l ∧ l.processes = ns) ↔
      List.Forall₂ (fun c n => readNode A compat load false c = .ok n)
        (x.children.filter Spec.IsNode) ns := by
  have e : x.children.filter Spec.IsNode =
      x.children.filter fun c => elementType c.tag ∈ Spec.nodeNames := by
    apply List.filter_congr
    intro c _
    exact decide_eq_decide.mpr (isNode_iff c)
  rw [e]
  unfold readList
  constructor
  · rintro ⟨l, h, rfl⟩
    obtain ⟨ns, h1, rfl⟩ := (readList_fold _ _ _ _ _ _).mp h
    simpa using h1
  · intro h
    exact ⟨_, (readList_fold _ _ _ _ _ _).mpr ⟨ns, h, rfl⟩, by simp⟩

open Classical in
/-- The other known elements are kept in order too. -/
theorem C05_elements (A : Arith K) (compat : ℕ) (load : String → Py (Option (List (Node K))))
    (strict : Bool) (x : Xml) (l : PList K) (h : readList A compat load strict x = .ok l) :
    List.Forall₂ Spec.Kept (x.children.filter Spec.IsInfo) l.elements := by
  have h' : readList A compat load false x = .ok l := by
    cases strict with
    | false => exact h
    | true => exact ((readList_strict _ _ _ _ _).mp h).1
  have e : x.children.filter Spec.IsInfo =
      x.children.filter fun c => elementType c.tag ∈ Spec.infoNames := by
    apply List.filter_congr
    intro c _
    exact decide_eq_decide.mpr (isInfo_iff c)
  rw [e]
  unfold readList at h'
  obtain ⟨ns, h1, rfl⟩ := (readList_fold _ _ _ _ _ _).mp h'
  simpa using filterMap_infoOf x.children

/-- Each node is of the class its element names. -/
theorem C05_kind (A : Arith K) (compat : ℕ) (load : String → Py (Option (List (Node K))))
    (strict : Bool) (c : Xml) (n : Node K) (h : readNode A compat load strict c = .ok n) :
    Spec.Named c.tag (Spec.nameOf n) := by
  rw [named_iff]; exact readNode_name A compat load strict c n h

/-- The feature mask decides only about dynamic parameters. -/
theorem C05_mask (A : Arith K) (m m' : ℕ) (load : String → Py (Option (List (Node K))))
    (x : Xml) (l : PList K) (h : readList A m load false x = .ok l) :
    ∃ l', readList A m' load false x = .ok l' ∧ l'.attrs = l.attrs ∧
      l'.processes.map Spec.eraseDyn = l.processes.map Spec.eraseDyn := by
  unfold readList at h ⊢
  obtain ⟨ns, h1, rfl⟩ := (readList_fold _ _ _ _ _ _).mp h
  have : ∃ ns', List.Forall₂ (fun c n => readNode A m' load false c = .ok n)
      (x.children.filter fun c => elementType c.tag ∈ Spec.nodeNames) ns' ∧
      ns'.map Spec.eraseDyn = ns.map Spec.eraseDyn := by
    generalize (x.children.filter fun c => elementType c.tag ∈ Spec.nodeNames) = cs at h1
    clear h
    induction h1 with
    | nil => exact ⟨[], .nil, rfl⟩
    | cons hc _ ih =>
      rename_i c n cs ns _
      obtain ⟨ns', h2, h3⟩ := ih
      have := readNode_mask A m m' load c
      rw [hc] at this
      cases hr : readNode A m' load false c with
      | error e => rw [hr] at this; exact this.elim
      | ok n' =>
        rw [hr] at this
        exact ⟨n' :: ns', .cons hr h2, by
          rw [List.map_cons, List.map_cons, h3]; exact congrArg (· :: _) this.symm⟩
  obtain ⟨ns', h2, h3⟩ := this
  refine ⟨_, (readList_fold _ _ _ _ _ _).mpr ⟨ns', h2, rfl⟩, rfl, ?_⟩
  simpa using h3

example (A : Arith ℚ) (load : String → Py (Option (List (Node ℚ)))) :
    ∃ l, readList A 0 load false (.mk "ProcessList" [("id", "a")] none
      [.mk "Description" [] (some "d") [], .mk "Log" [] none [], .mk "LUT2D" [] none [],
        .mk "Group" [] none [exRange]]) = .ok l ∧
      l.processes.map Spec.nameOf = ["Log", "Group"] ∧
      l.elements = [.comment "Description" (some "d")] := ⟨_, rfl, rfl, rfl⟩

end CLF
