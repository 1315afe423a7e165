import Verif.Model.Read
import Verif.Spec.Xml
import Verif.Lemmas.Loops
import Mathlib.Data.List.TakeWhile

/-! # Reading documents -/

set_option linter.unusedSectionVars false

namespace CLF

variable {K : Type} [Field K] [LinearOrder K] [IsStrictOrderedRing K] [FloorRing K]

/-! ### Element names -/

theorem dropWhile_ne_of_notMem (t : Txt) (h : '}' ∉ t) : t.dropWhile (· ≠ '}') = [] := by
  rw [List.dropWhile_eq_nil_iff]
  intro c hc
  simp only [ne_eq, decide_eq_true_eq]
  rintro rfl; exact h hc

theorem dropWhile_append (s t : Txt) (h : '}' ∉ s) : (s ++ '}' :: t).dropWhile (· ≠ '}') = '}' :: t := by
  induction s with
  | nil => simp
  | cons c s ih =>
    have h1 : c ≠ '}' := fun e => h (by simp [e])
    have h2 : '}' ∉ s := fun e => h (by simp [e])
    rw [List.cons_append, List.dropWhile_cons_of_pos (by simp [h1]), ih h2]

theorem afterBrace_eq (t loc : Txt)
    (h : (∃ ns : Txt, '}' ∉ ns ∧ t = ns ++ '}' :: loc) ∨ ('}' ∉ loc ∧ t = loc)) :
    afterBrace t = loc := by
  rcases h with ⟨ns, hns, rfl⟩ | ⟨h, rfl⟩
  · unfold afterBrace
    rw [dropWhile_append _ _ hns]
  · unfold afterBrace
    rw [dropWhile_ne_of_notMem _ h]

theorem named_iff (tag name : String) : Spec.Named tag name ↔ name = elementType tag := by
  have hf : ∀ l : Txt, (l.filter fun c => !(c == '-' || c == '_'))
      = l.filter fun c => decide (c ≠ '-' ∧ c ≠ '_') := by
    intro l
    apply List.filter_congr
    intro c _
    by_cases h1 : c = '-' <;> by_cases h2 : c = '_' <;> simp [h1, h2]
  constructor
  · rintro ⟨loc, h1, h2⟩
    unfold elementType
    rw [afterBrace_eq _ _ h1, ← hf, ← h2, String.ofList_toList]
  · rintro rfl
    have : ∃ loc : Txt, ((∃ ns : Txt, '}' ∉ ns ∧ tag.toList = ns ++ '}' :: loc) ∨
        ('}' ∉ loc ∧ tag.toList = loc)) := by
      by_cases h : '}' ∈ tag.toList
      · obtain ⟨s, t, h1, h2⟩ := List.eq_append_cons_of_mem h
        exact ⟨t, .inl ⟨s, h2, h1⟩⟩
      · exact ⟨_, .inr ⟨h, rfl⟩⟩
    obtain ⟨loc, hl⟩ := this
    refine ⟨loc, hl, ?_⟩
    unfold elementType
    rw [afterBrace_eq _ _ hl, hf, String.toList_ofList]

/-! ### Registry -/

theorem ite_eq_some {α : Type} {p : Prop} [Decidable p] {a c : α} {o : Option α}
    (h : (if p then some a else o) = some c) : (p ∧ a = c) ∨ (¬ p ∧ o = some c) := by
  by_cases hp : p
  · rw [if_pos hp] at h; exact .inl ⟨hp, by injection h⟩
  · rw [if_neg hp] at h; exact .inr ⟨hp, h⟩

theorem classOf_isNode (t : String) (cls : Cls K) (h : classOf t = some cls) :
    (cls.isNode = true ∧ t ∈ Spec.nodeNames) ∨ (cls.isNode = false ∧ t ∈ Spec.infoNames) := by
  unfold classOf at h
  iterate 12
    rcases ite_eq_some h with ⟨rfl, rfl⟩ | ⟨_, h⟩
    · exact .inl ⟨rfl, by decide⟩
  iterate 5
    rcases ite_eq_some h with ⟨rfl, rfl⟩ | ⟨_, h⟩
    · exact .inr ⟨rfl, by decide⟩
  cases h

theorem classOf_none (t : String) :
    classOf (K := K) t = none ↔ ¬ (t ∈ Spec.nodeNames ∨ t ∈ Spec.infoNames) := by
  constructor
  · intro h hm
    have : classOf (K := K) t ≠ none := by
      simp only [Spec.nodeNames, Spec.infoNames, List.mem_cons, List.not_mem_nil, or_false] at hm
      rcases hm with hm | hm
      · rcases hm with rfl | rfl | rfl | rfl | rfl | rfl | rfl | rfl | rfl | rfl | rfl | rfl <;>
          (intro e; cases e)
      · rcases hm with rfl | rfl | rfl | rfl | rfl <;> (intro e; cases e)
    exact this h
  · intro h
    cases hc : classOf (K := K) t with
    | none => rfl
    | some cls =>
      rcases classOf_isNode t cls hc with h' | h'
      · exact absurd (.inl h'.2) h
      · exact absurd (.inr h'.2) h

theorem vendorOf_eq (t : String) : vendorOf t = Spec.neededFeature t := by
  unfold vendorOf Spec.neededFeature
  simp only [List.mem_cons, List.not_mem_nil, or_false]
  rfl

theorem enabled_iff (m f : ℕ) : Spec.enabled m f ↔ hasFeature m f = true := by
  unfold Spec.enabled hasFeature
  simp

theorem admissible_iff (m : ℕ) (tag : String) : Spec.Admissible m tag ↔
    (elementType tag ∈ Spec.nodeNames ∨ elementType tag ∈ Spec.infoNames) ∧
      ∀ f, vendorOf (elementType tag) = some f → hasFeature m f = true := by
  constructor
  · rintro ⟨name, h1, h2, h3⟩
    rw [named_iff] at h1
    subst h1
    refine ⟨h2, fun f hf => (enabled_iff _ _).mp (h3 f ?_)⟩
    rw [← vendorOf_eq]; exact hf
  · rintro ⟨h2, h3⟩
    refine ⟨_, (named_iff _ _).mpr rfl, h2, fun f hf => (enabled_iff _ _).mpr (h3 f ?_)⟩
    rw [vendorOf_eq]; exact hf

/-! ### Strict reading -/

/-- A dynamic parameter that strict reading accepts. -/
def dynOk (compat : ℕ) (c : Xml) : Prop :=
  hasFeature compat autodesk = true ∨ elementType c.tag ≠ "DynamicParameter"

theorem readCommon_strict (compat : ℕ) (b : Base K) (c : Xml) (r : Option (Base K)) :
    readCommon compat true b c = .ok r ↔ readCommon compat false b c = .ok r ∧ dynOk compat c := by
  unfold readCommon dynOk
  by_cases h1 : elementType c.tag = "Description"
  · have h2 : ¬ elementType c.tag = "DynamicParameter" := by rw [h1]; decide
    simp only [if_pos h1, ne_eq, h2, not_false_eq_true, or_true, and_true]
  · by_cases h2 : elementType c.tag = "DynamicParameter"
    · by_cases h3 : hasFeature compat autodesk = true
      · simp only [if_neg h1, if_pos h2, h3, if_true, true_or, and_true]
      · simp only [if_neg h1, if_pos h2, if_neg h3, h3, h2]
        simp
    · simp only [if_neg h1, ne_eq, h2, if_false, not_false_eq_true, or_true, and_true]

/-- A loop whose strict step is the plain step with a test. -/
theorem foldlM_strict {σ α : Type} (f g : σ → α → Py σ) (P : α → Prop)
    (h : ∀ s r a, f s a = .ok r ↔ g s a = .ok r ∧ P a) (l : List α) (s r : σ) :
    l.foldlM f s = .ok r ↔ l.foldlM g s = .ok r ∧ ∀ a ∈ l, P a := by
  induction l generalizing s with
  | nil => simp
  | cons a l ih =>
    simp only [List.foldlM_cons, List.forall_mem_cons]
    constructor
    · intro h1
      obtain ⟨t, h2, h3⟩ := py_bind_eq_ok.mp h1
      obtain ⟨h4, h5⟩ := (h _ _ _).mp h2
      obtain ⟨h6, h7⟩ := (ih _).mp h3
      exact ⟨py_bind_eq_ok.mpr ⟨t, h4, h6⟩, h5, h7⟩
    · rintro ⟨h1, h2, h3⟩
      obtain ⟨t, h4, h5⟩ := py_bind_eq_ok.mp h1
      exact py_bind_eq_ok.mpr ⟨t, (h _ _ _).mpr ⟨h4, h2⟩, (ih _).mpr ⟨h5, h3⟩⟩

theorem readLeafStep_strict (A : Arith K) (compat : ℕ) (s r : Kind K × Base K) (c : Xml) :
    readLeafStep A compat true s c = .ok r ↔
      readLeafStep A compat false s c = .ok r ∧ dynOk compat c := by
  unfold readLeafStep
  constructor
  · intro h
    obtain ⟨o, h1, h2⟩ := py_bind_eq_ok.mp h
    obtain ⟨h3, h4⟩ := (readCommon_strict _ _ _ _).mp h1
    exact ⟨py_bind_eq_ok.mpr ⟨o, h3, h2⟩, h4⟩
  · rintro ⟨h, h4⟩
    obtain ⟨o, h1, h2⟩ := py_bind_eq_ok.mp h
    exact py_bind_eq_ok.mpr ⟨o, (readCommon_strict _ _ _ _).mpr ⟨h1, h4⟩, h2⟩

theorem readRefStep_strict (compat : ℕ) (s r : Base K) (c : Xml) :
    readRefStep compat true s c = .ok r ↔
      readRefStep compat false s c = .ok r ∧ dynOk compat c := by
  unfold readRefStep
  constructor
  · intro h
    obtain ⟨o, h1, h2⟩ := py_bind_eq_ok.mp h
    obtain ⟨h3, h4⟩ := (readCommon_strict _ _ _ _).mp h1
    exact ⟨py_bind_eq_ok.mpr ⟨o, h3, h2⟩, h4⟩
  · rintro ⟨h, h4⟩
    obtain ⟨o, h1, h2⟩ := py_bind_eq_ok.mp h
    exact py_bind_eq_ok.mpr ⟨o, (readCommon_strict _ _ _ _).mpr ⟨h1, h4⟩, h2⟩

/-- One step of a group's child loop. -/
def readGroupStep (A : Arith K) (compat : ℕ) (load : String → Py (Option (List (Node K))))
    (strict : Bool) (s : Base K × List (Node K)) (c : Xml) : Py (Base K × List (Node K)) := do
  match ← readCommon compat strict s.1 c with
  | some b => pure (b, s.2)
  | none =>
    match classOf (K := K) (elementType c.tag) with
    | none => pure s
    | some cls =>
      if cls.isNode then do
        let n ← readNode A compat load false c
        pure (s.1, s.2 ++ [n])
      else pure (s.1.addElement (readElem cls c), s.2)

theorem readGroup_eq (A : Arith K) (compat : ℕ) (load : String → Py (Option (List (Node K))))
    (strict : Bool) (cs : List Xml) (b : Base K) (ns : List (Node K)) :
    readGroup A compat load strict cs b ns =
      cs.foldlM (readGroupStep A compat load strict) (b, ns) := by
  induction cs generalizing b ns with
  | nil => rw [readGroup]; rfl
  | cons c cs ih =>
    rw [readGroup, List.foldlM_cons]
    unfold readGroupStep
    cases h1 : readCommon compat strict b c with
    | error e => rfl
    | ok o =>
      cases o with
      | some b' => simp only [py_ok_bind, py_pure]; rw [ih]; rfl
      | none =>
        simp only [py_ok_bind]
        cases h2 : classOf (K := K) (elementType c.tag) with
        | none => simp only [py_pure, py_ok_bind]; rw [ih]; rfl
        | some cls =>
          by_cases h3 : cls.isNode = true
          · simp only [h3, if_true]
            cases h4 : readNode A compat load false c with
            | error e => rfl
            | ok n => simp only [py_ok_bind, py_pure]; rw [ih]; rfl
          · simp only [h3, py_pure, py_ok_bind]
            rw [ih]; rfl

theorem readGroupStep_strict (A : Arith K) (compat : ℕ) (load : String → Py (Option (List (Node K))))
    (s r : Base K × List (Node K)) (c : Xml) :
    readGroupStep A compat load true s c = .ok r ↔
      readGroupStep A compat load false s c = .ok r ∧ dynOk compat c := by
  unfold readGroupStep
  constructor
  · intro h
    obtain ⟨o, h1, h2⟩ := py_bind_eq_ok.mp h
    obtain ⟨h3, h4⟩ := (readCommon_strict _ _ _ _).mp h1
    exact ⟨py_bind_eq_ok.mpr ⟨o, h3, h2⟩, h4⟩
  · rintro ⟨h, h4⟩
    obtain ⟨o, h1, h2⟩ := py_bind_eq_ok.mp h
    exact py_bind_eq_ok.mpr ⟨o, (readCommon_strict _ _ _ _).mpr ⟨h1, h4⟩, h2⟩

theorem readNode_mk (A : Arith K) (compat : ℕ) (load : String → Py (Option (List (Node K))))
    (strict : Bool) (x : Xml) : readNode A compat load strict x =
      match classOf (K := K) (elementType x.tag) with
      | some (.leaf k b) => readLeaf A compat strict k b x.attrs x.children
      | some .group => do
        let (b, ns) ← readGroup A compat load strict x.children (readAttrs defaultBase x.attrs) []
        pure (.group b ns)
      | some .reference => do
        let b ← x.children.foldlM (readRefStep compat strict) (readAttrs defaultBase x.attrs)
        resolveRef load b
      | _ => .error .typeError := by
  cases x
  rw [readNode]; rfl

theorem readNode_strict (A : Arith K) (compat : ℕ) (load : String → Py (Option (List (Node K))))
    (x : Xml) (n : Node K) : readNode A compat load true x = .ok n ↔
      readNode A compat load false x = .ok n ∧ ∀ c ∈ x.children, dynOk compat c := by
  rw [readNode_mk, readNode_mk]
  cases h : classOf (K := K) (elementType x.tag) with
  | none => simp
  | some cls =>
    cases cls with
    | leaf k b =>
      simp only [readLeaf]
      constructor
      · intro h
        obtain ⟨o, h1, h2⟩ := py_bind_eq_ok.mp h
        obtain ⟨h3, h4⟩ := (foldlM_strict _ _ _ (readLeafStep_strict A compat) _ _ _).mp h1
        exact ⟨py_bind_eq_ok.mpr ⟨o, h3, h2⟩, h4⟩
      · rintro ⟨h, h4⟩
        obtain ⟨o, h1, h2⟩ := py_bind_eq_ok.mp h
        exact py_bind_eq_ok.mpr
          ⟨o, (foldlM_strict _ _ _ (readLeafStep_strict A compat) _ _ _).mpr ⟨h1, h4⟩, h2⟩
    | group =>
      simp only [readGroup_eq]
      constructor
      · intro h
        obtain ⟨o, h1, h2⟩ := py_bind_eq_ok.mp h
        obtain ⟨h3, h4⟩ := (foldlM_strict _ _ _ (readGroupStep_strict A compat load) _ _ _).mp h1
        exact ⟨py_bind_eq_ok.mpr ⟨o, h3, h2⟩, h4⟩
      · rintro ⟨h, h4⟩
        obtain ⟨o, h1, h2⟩ := py_bind_eq_ok.mp h
        exact py_bind_eq_ok.mpr
          ⟨o, (foldlM_strict _ _ _ (readGroupStep_strict A compat load) _ _ _).mpr ⟨h1, h4⟩, h2⟩
    | reference =>
      simp only []
      constructor
      · intro h
        obtain ⟨o, h1, h2⟩ := py_bind_eq_ok.mp h
        obtain ⟨h3, h4⟩ := (foldlM_strict _ _ _ (readRefStep_strict compat) _ _ _).mp h1
        exact ⟨py_bind_eq_ok.mpr ⟨o, h3, h2⟩, h4⟩
      · rintro ⟨h, h4⟩
        obtain ⟨o, h1, h2⟩ := py_bind_eq_ok.mp h
        exact py_bind_eq_ok.mpr
          ⟨o, (foldlM_strict _ _ _ (readRefStep_strict compat) _ _ _).mpr ⟨h1, h4⟩, h2⟩
    | processNode => simp
    | comment t => simp
    | info => simp

/-- What strict reading asks of a top-level element. -/
def strictOk (compat : ℕ) (c : Xml) : Prop :=
  ((elementType c.tag ∈ Spec.nodeNames ∧ ∀ d ∈ c.children, dynOk compat d) ∨
      elementType c.tag ∈ Spec.infoNames) ∧
    ∀ f, vendorOf (elementType c.tag) = some f → hasFeature compat f = true

theorem nodeNames_infoNames (t : String) (h : t ∈ Spec.nodeNames) : t ∉ Spec.infoNames := by
  have : ∀ t ∈ Spec.nodeNames, t ∉ Spec.infoNames := by decide
  exact this t h

theorem vendorOf_info (t : String) (h : t ∈ Spec.infoNames) : vendorOf t = none := by
  have : ∀ t ∈ Spec.infoNames, vendorOf t = none := by decide
  exact this t h

theorem readListStep_strict (A : Arith K) (compat : ℕ) (load : String → Py (Option (List (Node K))))
    (l r : PList K) (c : Xml) : readListStep A compat load true l c = .ok r ↔
      readListStep A compat load false l c = .ok r ∧ strictOk compat c := by
  unfold readListStep strictOk
  cases h : classOf (K := K) (elementType c.tag) with
  | none =>
    have h1 := (classOf_none (K := K) _).mp h
    push Not at h1
    simp only [h, h1.1, h1.2]; simp
  | some cls =>
    rcases classOf_isNode _ _ h with ⟨h1, h2⟩ | ⟨h1, h2⟩
    · have h3 := nodeNames_infoNames _ h2
      simp only [h, h1, if_true, h2, true_and, h3, or_false]
      cases hv : vendorOf (elementType c.tag) with
      | none =>
        simp only [reduceCtorEq, false_imp_iff, implies_true, and_true]
        constructor
        · intro h
          obtain ⟨n, h4, h5⟩ := py_bind_eq_ok.mp h
          obtain ⟨h6, h7⟩ := (readNode_strict _ _ _ _ _).mp h4
          exact ⟨py_bind_eq_ok.mpr ⟨n, h6, h5⟩, h7⟩
        · rintro ⟨h, h7⟩
          obtain ⟨n, h4, h5⟩ := py_bind_eq_ok.mp h
          exact py_bind_eq_ok.mpr ⟨n, (readNode_strict _ _ _ _ _).mpr ⟨h4, h7⟩, h5⟩
      | some f =>
        simp only [Option.some.injEq, forall_eq', Bool.and_true, Bool.and_false,
          Bool.false_eq_true, if_false, Bool.not_eq_true']
        constructor
        · intro h
          obtain ⟨n, h4, h5⟩ := py_bind_eq_ok.mp h
          obtain ⟨h6, h7⟩ := (readNode_strict _ _ _ _ _).mp h4
          by_cases hf : hasFeature compat f = true
          · rw [if_neg (by simp [hf])] at h5
            exact ⟨py_bind_eq_ok.mpr ⟨n, h6, h5⟩, h7, hf⟩
          · rw [if_pos (by simpa using hf)] at h5
            cases h5
        · rintro ⟨h, h7, hf⟩
          obtain ⟨n, h4, h5⟩ := py_bind_eq_ok.mp h
          exact py_bind_eq_ok.mpr ⟨n, (readNode_strict _ _ _ _ _).mpr ⟨h4, h7⟩,
            by rw [if_neg (by simp [hf])]; exact h5⟩
    · have h3 : elementType c.tag ∉ Spec.nodeNames := fun h => nodeNames_infoNames _ h h2
      simp only [h, h1, h2, vendorOf_info _ h2]; simp

theorem readList_strict (A : Arith K) (compat : ℕ) (load : String → Py (Option (List (Node K))))
    (x : Xml) (l : PList K) : readList A compat load true x = .ok l ↔
      readList A compat load false x = .ok l ∧ ∀ c ∈ x.children, strictOk compat c := by
  unfold readList
  exact foldlM_strict _ _ _ (readListStep_strict A compat load) _ _ _

/-! ### Plain reading -/

theorem isNode_iff (c : Xml) : Spec.IsNode c ↔ elementType c.tag ∈ Spec.nodeNames := by
  constructor
  · rintro ⟨name, h, hn⟩
    rw [named_iff] at hn; subst hn; exact h
  · intro h; exact ⟨_, h, (named_iff _ _).mpr rfl⟩

theorem isInfo_iff (c : Xml) : Spec.IsInfo c ↔ elementType c.tag ∈ Spec.infoNames := by
  constructor
  · rintro ⟨name, h, hn⟩
    rw [named_iff] at hn; subst hn; exact h
  · intro h; exact ⟨_, h, (named_iff _ _).mpr rfl⟩

/-- The non-node element read from a child. -/
def infoOf (c : Xml) : Option (Elem K) :=
  match classOf (K := K) (elementType c.tag) with
  | none => none
  | some cls => if cls.isNode then none else some (readElem cls c)

theorem readListStep_plain (A : Arith K) (compat : ℕ) (load : String → Py (Option (List (Node K))))
    (l r : PList K) (c : Xml) : readListStep A compat load false l c = .ok r ↔
      (elementType c.tag ∈ Spec.nodeNames ∧ ∃ n, readNode A compat load false c = .ok n ∧
        r = { l with processes := l.processes ++ [n] }) ∨
      (elementType c.tag ∉ Spec.nodeNames ∧ r = { l with elements := l.elements ++ (infoOf c).toList }) := by
  unfold readListStep infoOf
  cases h : classOf (K := K) (elementType c.tag) with
  | none =>
    have h1 := (classOf_none (K := K) _).mp h
    push Not at h1
    simp only [h, h1.1, false_and, false_or, not_false_eq_true, true_and, Option.toList_none,
      List.append_nil, Bool.false_eq_true, if_false]
    constructor
    · intro e; injection e with e; exact e.symm
    · intro e; rw [e]
  | some cls =>
    rcases classOf_isNode _ _ h with ⟨h1, h2⟩ | ⟨h1, h2⟩
    · simp only [h, h1, if_true, h2, true_and, not_true, false_and, or_false]
      have e : ∀ n, (match vendorOf (elementType c.tag) with
          | some f => if (!hasFeature compat f && false) = true then Except.error PyErr.unsupportedExtension
              else pure { l with processes := l.processes ++ [n] }
          | none => pure { l with processes := l.processes ++ [n] } : Py (PList K)) =
          .ok { l with processes := l.processes ++ [n] } := by
        intro n
        cases vendorOf (elementType c.tag) with
        | none => rfl
        | some f => simp only [Bool.and_false, Bool.false_eq_true, if_false]; rfl
      constructor
      · intro h
        obtain ⟨n, h4, h5⟩ := py_bind_eq_ok.mp h
        have h5 := (e n).symm.trans h5; injection h5 with h5
        exact ⟨n, h4, h5.symm⟩
      · rintro ⟨n, h4, rfl⟩
        exact py_bind_eq_ok.mpr ⟨n, h4, e n⟩
    · have h3 : elementType c.tag ∉ Spec.nodeNames := fun h => nodeNames_infoNames _ h h2
      simp only [h, h1, h3, false_and, false_or, not_false_eq_true, true_and, Bool.false_eq_true,
        if_false, Option.toList_some]
      constructor
      · intro e; injection e with e; exact e.symm
      · intro e; rw [e]

theorem readList_fold (A : Arith K) (compat : ℕ) (load : String → Py (Option (List (Node K))))
    (cs : List Xml) (l r : PList K) : cs.foldlM (readListStep A compat load false) l = .ok r ↔
      ∃ ns, List.Forall₂ (fun c n => readNode A compat load false c = .ok n)
        (cs.filter fun c => elementType c.tag ∈ Spec.nodeNames) ns ∧
        r = { l with processes := l.processes ++ ns, elements := l.elements ++
          ((cs.filter fun c => elementType c.tag ∉ Spec.nodeNames).filterMap infoOf) } := by
  induction cs generalizing l with
  | nil =>
    simp only [List.foldlM_nil, py_pure, List.filter_nil, List.forall₂_nil_left_iff,
      List.filterMap_nil, List.append_nil]
    constructor
    · intro e; injection e with e; exact ⟨[], rfl, by rw [← e]; simp⟩
    · rintro ⟨ns, rfl, rfl⟩; simp
  | cons c cs ih =>
    rw [List.foldlM_cons]
    by_cases hc : elementType c.tag ∈ Spec.nodeNames
    · rw [List.filter_cons_of_pos (by simpa using hc), List.filter_cons_of_neg (by simpa using hc)]
      constructor
      · intro h
        obtain ⟨t, h1, h2⟩ := py_bind_eq_ok.mp h
        rcases (readListStep_plain _ _ _ _ _ _).mp h1 with ⟨_, n, h3, rfl⟩ | ⟨h3, _⟩
        · obtain ⟨ns, h4, rfl⟩ := (ih _).mp h2
          exact ⟨n :: ns, .cons h3 h4, by simp⟩
        · exact absurd hc h3
      · rintro ⟨ns, h1, rfl⟩
        cases h1 with
        | cons h3 h4 =>
          refine py_bind_eq_ok.mpr ⟨_, (readListStep_plain _ _ _ _ _ _).mpr (.inl ⟨hc, _, h3, rfl⟩), ?_⟩
          exact (ih _).mpr ⟨_, h4, by simp⟩
    · rw [List.filter_cons_of_neg (by simpa using hc), List.filter_cons_of_pos (by simpa using hc)]
      have e : ((c :: cs.filter fun c => elementType c.tag ∉ Spec.nodeNames).filterMap (infoOf (K := K)))
          = (infoOf c).toList ++ (cs.filter fun c => elementType c.tag ∉ Spec.nodeNames).filterMap infoOf := by
        cases h : infoOf (K := K) c with
        | none => rw [List.filterMap_cons_none h]; rfl
        | some v => rw [List.filterMap_cons_some h]; rfl
      constructor
      · intro h
        obtain ⟨t, h1, h2⟩ := py_bind_eq_ok.mp h
        rcases (readListStep_plain _ _ _ _ _ _).mp h1 with ⟨h3, _⟩ | ⟨_, rfl⟩
        · exact absurd h3 hc
        · obtain ⟨ns, h4, rfl⟩ := (ih _).mp h2
          exact ⟨ns, h4, by rw [e]; simp⟩
      · rintro ⟨ns, h1, rfl⟩
        refine py_bind_eq_ok.mpr ⟨_, (readListStep_plain _ _ _ _ _ _).mpr (.inr ⟨hc, rfl⟩), ?_⟩
        exact (ih _).mpr ⟨_, h1, by rw [e]; simp⟩

theorem infoOf_isSome (c : Xml) : (infoOf (K := K) c).isSome ↔ elementType c.tag ∈ Spec.infoNames := by
  unfold infoOf
  cases h : classOf (K := K) (elementType c.tag) with
  | none =>
    have h1 := (classOf_none (K := K) _).mp h
    push Not at h1
    simp [h1.2]
  | some cls =>
    rcases classOf_isNode _ _ h with ⟨h1, h2⟩ | ⟨h1, h2⟩
    · simp [h1, nodeNames_infoNames _ h2]
    · simp [h1, h2]

theorem readInfo_spec (c : Xml) : ∃ ds, List.Sublist ds c.children ∧
    (∀ d ∈ c.children, (∃ name ∈ ["AppRelease", "Copyright", "Release"], Spec.Named d.tag name) → d ∈ ds) ∧
    List.Forall₂ (fun d (p : String × Option String) => p.1 ∈ ["AppRelease", "Copyright", "Release"] ∧
      Spec.Named d.tag p.1 ∧ p.2 = d.text) ds (readInfo c) := by
  unfold readInfo
  induction c.children with
  | nil => exact ⟨[], .slnil, by simp, by simp⟩
  | cons d ds ih =>
    obtain ⟨es, h1, h2, h3⟩ := ih
    by_cases h : elementType d.tag = "AppRelease" ∨ elementType d.tag = "Copyright" ∨
        elementType d.tag = "Release"
    · refine ⟨d :: es, h1.cons_cons d, ?_, ?_⟩
      · intro e he hn
        rcases List.mem_cons.mp he with rfl | he
        · exact List.mem_cons_self ..
        · exact List.mem_cons_of_mem _ (h2 e he hn)
      · rw [List.filterMap_cons_some (b := (elementType d.tag, d.text)) (by simp only [if_pos h])]
        refine .cons ⟨?_, (named_iff _ _).mpr rfl, rfl⟩ h3
        simpa using h
    · refine ⟨es, h1.cons d, ?_, ?_⟩
      · intro e he hn
        rcases List.mem_cons.mp he with rfl | he
        · obtain ⟨name, h4, h5⟩ := hn
          rw [named_iff] at h5
          subst h5
          exact absurd (by simpa using h4) h
        · exact h2 e he hn
      · rw [List.filterMap_cons_none (by simp only [if_neg h])]
        exact h3

theorem infoOf_kept (c : Xml) (e : Elem K) (h : infoOf c = some e) : Spec.Kept c e := by
  have hs := (infoOf_isSome (K := K) c).mp (by rw [h]; rfl)
  have hk : ∀ name, elementType c.tag = name → Spec.Named c.tag name :=
    fun name hn => (named_iff _ _).mpr hn.symm
  unfold infoOf at h
  simp only [Spec.infoNames, List.mem_cons, List.not_mem_nil, or_false] at hs
  rcases hs with hs | hs | hs | hs | hs
  all_goals
    have hn := hk _ hs
    rw [hs] at h
  · left
    refine ⟨_, ?_, ?_, hn, ?_⟩
    · decide
    · decide
    · cases h; rfl
  · left
    refine ⟨_, ?_, ?_, hn, ?_⟩
    · decide
    · decide
    · cases h; rfl
  · left
    refine ⟨_, ?_, ?_, hn, ?_⟩
    · decide
    · decide
    · cases h; rfl
  · left
    refine ⟨_, ?_, ?_, hn, ?_⟩
    · decide
    · decide
    · cases h; rfl
  · right
    obtain ⟨ds, h1, h2, h3⟩ := readInfo_spec c
    refine ⟨hn, readInfo c, ds, ?_, h1, h2, h3⟩
    cases h; rfl

theorem filterMap_infoOf (cs : List Xml) :
    List.Forall₂ Spec.Kept (cs.filter fun c => elementType c.tag ∈ Spec.infoNames)
      ((cs.filter fun c => elementType c.tag ∉ Spec.nodeNames).filterMap (infoOf (K := K))) := by
  induction cs with
  | nil => exact .nil
  | cons c cs ih =>
    by_cases hi : elementType c.tag ∈ Spec.infoNames
    · have hn : elementType c.tag ∉ Spec.nodeNames := fun h => nodeNames_infoNames _ h hi
      rw [List.filter_cons_of_pos (by simpa using hi), List.filter_cons_of_pos (by simpa using hn)]
      obtain ⟨e, he⟩ := Option.isSome_iff_exists.mp ((infoOf_isSome (K := K) c).mpr hi)
      rw [List.filterMap_cons_some he]
      exact .cons (infoOf_kept c e he) ih
    · rw [List.filter_cons_of_neg (by simpa using hi)]
      by_cases hn : elementType c.tag ∈ Spec.nodeNames
      · rw [List.filter_cons_of_neg (by simpa using hn)]; exact ih
      · rw [List.filter_cons_of_pos (by simpa using hn)]
        have he : infoOf (K := K) c = none := by
          by_contra hne
          exact hi ((infoOf_isSome (K := K) c).mp (Option.isSome_iff_ne_none.mpr hne))
        rw [List.filterMap_cons_none he]; exact ih

end CLF
