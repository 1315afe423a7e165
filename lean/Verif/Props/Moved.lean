import Verif.Lemmas.SelfContained
import Verif.Props.ReadFile

/-! # Moving files

C160: reading a process list does not depend on where its file stands.  False for files with
references by relative path, which are looked up in the working directory. -/

set_option linter.unusedSectionVars false

namespace CLF

namespace Spec

/-- The text of an attribute of an element, empty if it has none. -/
def AttrOr (x : Xml) (k t : String) : Prop :=
  (k, t) ∈ x.attrs ∨ k ∉ x.attrs.map Prod.fst ∧ t = ""

/-- A Reference in the document, at any depth, names the file `q`. -/
inductive RefersTo : Xml → String → Prop
  | here {x : Xml} {base path q : String} : Named x.tag "Reference" → AttrOr x "basePath" base →
      AttrOr x "path" path → Joins base path q → RefersTo x q
  | inside {x c : Xml} {q : String} : c ∈ x.children → RefersTo c q → RefersTo x q

/-- The files holding documents name only files in `P`. -/
def RefersWithin (P : String → Prop) : Option File → Prop
  | some (.doc x) => ∀ q, RefersTo x q → P q
  | some (.gz x) => ∀ q, RefersTo x q → P q
  | _ => True

/-- A path from the root. -/
def FromRoot (q : String) : Prop := ∃ t, q.toList = '/' :: t

end Spec

variable {K : Type} [Field K] [LinearOrder K] [IsStrictOrderedRing K] [FloorRing K]

theorem readAttrs_some (b : Base K) (attrs : Dict String) (k : String) :
    (∃ t, (k, t) ∈ attrs ∧ (readAttrs b attrs).attrs.get? k = some (attrOfText t)) ∨
    (k ∉ attrs.map Prod.fst ∧ (readAttrs b attrs).attrs.get? k = b.attrs.get? k) := by
  rw [readAttrs_attrs]
  induction attrs using List.reverseRecOn with
  | nil => exact .inr ⟨by simp, rfl⟩
  | append_singleton l p ih =>
    rw [List.foldl_append, List.foldl_cons, List.foldl_nil, Dict.get?_set]
    by_cases hp : p.1 = k
    · left
      refine ⟨p.2, ?_, by rw [if_pos hp]⟩
      rw [← hp]; simp
    · rw [if_neg hp]
      rcases ih with ⟨t, h1, h2⟩ | ⟨h1, h2⟩
      · exact .inl ⟨t, by simp [h1], h2⟩
      · right
        refine ⟨?_, h2⟩
        rw [List.map_append, List.mem_append]
        rintro (h | h)
        · exact h1 h
        · simp only [List.map_cons, List.map_nil, List.mem_singleton] at h; exact hp h.symm

theorem attrOfText_cases (s : String) : attrOfText s = .str s ∨ ∃ b, attrOfText s = .bool b := by
  unfold attrOfText
  by_cases h1 : s = "True"
  · rw [if_pos h1]; exact .inr ⟨_, rfl⟩
  · rw [if_neg h1]
    by_cases h2 : s = "False"
    · rw [if_pos h2]; exact .inr ⟨_, rfl⟩
    · rw [if_neg h2]; exact .inl rfl

/-- What an attribute of a reference is once read. -/
theorem refAttr_cases (x : Xml) (b : Base K) (k : String)
    (hk : (defaultBase (K := K)).attrs.get? k = none)
    (hb : b.attrs = (readAttrs (K := K) defaultBase x.attrs).attrs) :
    ∃ t, Spec.AttrOr x k t ∧
      ((b.attrs.get? k).getD (.str "") = .str t ∨ ∃ c, (b.attrs.get? k).getD (.str "") = .bool c) := by
  rw [hb]
  rcases readAttrs_some (K := K) defaultBase x.attrs k with ⟨t, h1, h2⟩ | ⟨h1, h2⟩
  · refine ⟨t, .inl h1, ?_⟩
    rw [h2]
    exact attrOfText_cases t
  · refine ⟨"", .inr ⟨h1, rfl⟩, .inl ?_⟩
    rw [h2, hk]; rfl

theorem joins_of_joinPath (base path q : String) (h : joinPath (.str base) (.str path) = .ok q) :
    Spec.Joins base path q := by
  unfold joinPath at h
  simp only at h
  by_cases h1 : path.toList.head? = some '/'
  · rw [if_pos h1] at h
    cases h
    cases hp : path.toList with
    | nil => rw [hp] at h1; cases h1
    | cons c t =>
      rw [hp] at h1
      cases h1
      exact .absolute hp
  · rw [if_neg h1] at h
    by_cases h2 : base = "" ∨ base.toList.getLast? = some '/'
    · rw [if_pos h2] at h
      cases h
      rcases h2 with rfl | h2
      · rw [String.empty_append]; exact .bare h1
      · obtain ⟨t, ht⟩ := List.getLast?_eq_some_iff.mp h2
        exact .slash h1 ht
    · rw [if_neg h2] at h
      cases h
      rw [not_or] at h2
      cases hl : base.toList.getLast? with
      | none =>
        rw [List.getLast?_eq_none_iff] at hl
        exact absurd (String.toList_inj.mp (by rw [hl]; rfl)) h2.1
      | some c =>
        obtain ⟨t, ht⟩ := List.getLast?_eq_some_iff.mp hl
        exact .plain h1 ht (fun e => h2.2 (by rw [hl, e]))

theorem refPath_names (x : Xml) (hx : Spec.Named x.tag "Reference") (b : Base K)
    (hb : b.attrs = (readAttrs (K := K) defaultBase x.attrs).attrs) (q : String)
    (h : joinPath ((b.attrs.get? "basePath").getD (.str "")) ((b.attrs.get? "path").getD (.str "")) = .ok q) :
    Spec.RefersTo x q := by
  obtain ⟨base, h1, h2⟩ := refAttr_cases x b "basePath" (by rfl) hb
  obtain ⟨path, h3, h4⟩ := refAttr_cases x b "path" (by rfl) hb
  rcases h4 with h4 | ⟨c, h4⟩
  · rcases h2 with h2 | ⟨c, h2⟩
    · rw [h2, h4] at h
      exact .here hx h1 h3 (joins_of_joinPath _ _ _ h)
    · rw [h2, h4] at h
      unfold joinPath at h
      simp only at h
      by_cases h5 : path.toList.head? = some '/'
      · rw [if_pos h5] at h
        cases h
        cases hp : q.toList with
        | nil => rw [hp] at h5; cases h5
        | cons c t =>
          rw [hp] at h5
          cases h5
          exact .here hx h1 h3 (.absolute hp)
      · rw [if_neg h5] at h; cases h
  · rw [h4] at h
    exfalso
    unfold joinPath at h
    rcases h2 with h2 | ⟨c', h2⟩ <;> rw [h2] at h <;> cases h

theorem readNode_loads (A : Arith K) (compat : ℕ) (load load' : String → Py (Option (List (Node K))))
    (x : Xml) : ∀ strict : Bool, (∀ q, Spec.RefersTo x q → load q = load' q) →
    readNode A compat load strict x = readNode A compat load' strict x := by
  induction x using Xml.ind with
  | h t a s cs ih =>
    intro strict hx
    rw [readNode_mk, readNode_mk]
    simp only [Xml.tag, Xml.attrs, Xml.children]
    cases hc : classOf (K := K) (elementType t) with
    | none => rfl
    | some cls =>
      cases cls with
      | leaf k b => rfl
      | reference =>
        simp only
        cases hf : cs.foldlM (readRefStep compat strict) (readAttrs (K := K) defaultBase a) with
        | error e => rfl
        | ok b =>
          rw [py_ok_bind, py_ok_bind]
          unfold resolveRef
          cases hj : joinPath ((b.attrs.get? "basePath").getD (.str "")) ((b.attrs.get? "path").getD (.str "")) with
          | error e => rfl
          | ok q =>
            rw [py_ok_bind, py_ok_bind, hx q (refPath_names (.mk t a s cs)
              ((named_iff _ _).mpr (classOf_reference_name _ hc).symm) b (readRefFold_attrs _ _ _ _ _ hf) q hj)]
      | group =>
        simp only
        rw [readGroup_eq, readGroup_eq]
        congr 1
        apply foldlM_congr'
        intro st c hc
        unfold readGroupStep
        rw [ih c hc false (fun q hq => hx q (.inside hc hq))]
      | _ => rfl

theorem readList_loads (A : Arith K) (compat : ℕ) (load load' : String → Py (Option (List (Node K))))
    (strict : Bool) (x : Xml) (h : ∀ q, Spec.RefersTo x q → load q = load' q) :
    readList A compat load strict x = readList A compat load' strict x := by
  unfold readList
  apply foldlM_congr'
  intro l c hc
  unfold readListStep
  rw [readNode_loads A compat load load' c strict (fun q hq => h q (.inside hc hq))]

theorem loader_congr (A : Arith K) (compat : ℕ) (fs fs' : String → Option File) (k : ℕ) (q : String)
    (h : fs' q = fs q) (hr : readFile A compat fs' k false q = readFile A compat fs k false q) :
    loader A compat fs' k q = loader A compat fs k q := by
  unfold loader
  rw [h, hr]

theorem readContents_congr {α : Type} (compat : ℕ) (rd rd' : Xml → Py α) (P : String → Prop) (f : File)
    (hn : Spec.RefersWithin P (some f)) (h : ∀ x, (∀ q, Spec.RefersTo x q → P q) → rd x = rd' x) :
    readContents compat rd f = readContents compat rd' f := by
  cases f with
  | doc x => exact h x hn
  | gz x => simp only [readContents, h x hn]
  | garbage => rfl
  | unreadable => rfl

theorem readFile_loads (A : Arith K) (compat : ℕ) (fs fs' : String → Option File) (P : String → Prop)
    (k : ℕ) (strict : Bool) (p p' : String) (hp : fs' p' = fs p) (hn : Spec.RefersWithin P (fs p))
    (hl : ∀ q, P q → loader A compat fs' k q = loader A compat fs k q) :
    readFile A compat fs' (k + 1) strict p' = readFile A compat fs (k + 1) strict p := by
  rw [readFile_succ, readFile_succ, hp]
  cases hf : fs p with
  | none => rfl
  | some f =>
    rw [hf] at hn
    exact readContents_congr compat _ _ P f hn (fun x hx =>
      readList_loads _ _ _ _ _ _ (fun q hq => hl q (hx q hq)))

/-! ### C160 -/

/-- Reading depends only on the contents of the file and of the files its references lead to:
if these keep their contents and their paths, it makes no difference where the file itself
stands, nor what else is on the disk, at any depth of nesting and whether reading succeeds
or fails.  Missing: references to files that move along. -/
theorem C160_partial (A : Arith K) (compat : ℕ) (fs fs' : String → Option File) (P : String → Prop)
    (hP : ∀ q, P q → fs' q = fs q ∧ Spec.RefersWithin P (fs q))
    (fuel : ℕ) (strict : Bool) (p p' : String) (hp : fs' p' = fs p) (hn : Spec.RefersWithin P (fs p)) :
    readFile A compat fs' fuel strict p' = readFile A compat fs fuel strict p := by
  induction fuel generalizing strict p p' with
  | zero => rw [readFile, readFile]
  | succ k ih =>
    exact readFile_loads A compat fs fs' P k strict p p' hp hn (fun q hq =>
      loader_congr A compat fs fs' k q (hP q hq).1 (ih false q q (hP q hq).1 (hP q hq).2))

/-- A file without references may be moved anywhere. -/
theorem C160_alone_partial (A : Arith K) (compat : ℕ) (fs fs' : String → Option File)
    (fuel : ℕ) (strict : Bool) (p p' : String) (hp : fs' p' = fs p)
    (hn : Spec.RefersWithin (fun _ => False) (fs p)) :
    readFile A compat fs' fuel strict p' = readFile A compat fs fuel strict p :=
  C160_partial A compat fs fs' (fun _ => False) (fun _ h => h.elim) fuel strict p p' hp hn

/-- A file whose references, and theirs in turn, are by paths from the root may be moved
anywhere if those files stay. -/
theorem C160_root_partial (A : Arith K) (compat : ℕ) (fs fs' : String → Option File)
    (hP : ∀ q, Spec.FromRoot q → fs' q = fs q ∧ Spec.RefersWithin Spec.FromRoot (fs q))
    (fuel : ℕ) (strict : Bool) (p p' : String) (hp : fs' p' = fs p)
    (hn : Spec.RefersWithin Spec.FromRoot (fs p)) :
    readFile A compat fs' fuel strict p' = readFile A compat fs fuel strict p :=
  C160_partial A compat fs fs' Spec.FromRoot hP fuel strict p p' hp hn

/-- A document holding a reference to `q`. -/
def referTo (q : String) : Xml := .mk "ProcessList" [] none [.mk "Reference" [("path", q)] none []]

/-- Two files in one folder, one referring to the other. -/
def besideFs : String → Option File := fun q =>
  if q = "a.clf" then some (.doc (referTo "b.clf"))
  else if q = "b.clf" then some (.doc (.mk "ProcessList" [] none [exDoubler []]))
  else none

/-- The same two files, moved to a folder. -/
def movedFs : String → Option File := fun q =>
  if q = "luts/a.clf" then some (.doc (referTo "b.clf"))
  else if q = "luts/b.clf" then some (.doc (.mk "ProcessList" [] none [exDoubler []]))
  else none

/-- Two files that double are moved together into a folder.  Read there, even strictly, they
leave every colour as it is. -/
theorem C160_false : ∃ l l' : PList ℚ,
    besideFs "a.clf" = movedFs "luts/a.clf" ∧ besideFs "b.clf" = movedFs "luts/b.clf" ∧
    readFile ratArith 3 besideFs 3 true "a.clf" = .ok l ∧
    processList ratArith 3 l.processes [.fin 1, .fin 2, .fin 3] 3 = .ok [.fin 2, .fin 4, .fin 6] ∧
    readFile ratArith 3 movedFs 3 true "luts/a.clf" = .ok l' ∧
    processList ratArith 3 l'.processes [.fin 1, .fin 2, .fin 3] 3 = .ok [.fin 1, .fin 2, .fin 3] :=
  ⟨_, _, rfl, rfl, rfl, by decide +kernel, rfl, by decide +kernel⟩

/-! ### Examples -/

/-- The doubler stays at a path from the root. -/
def rootFs (p : String) : String → Option File := fun q =>
  if q = "/b.clf" then some (.doc (.mk "ProcessList" [] none [exDoubler []]))
  else if q = p then some (.doc (referTo "/b.clf"))
  else none

theorem exDoubler_names (q : String) : ¬ Spec.RefersTo (.mk "ProcessList" [] none [exDoubler []]) q := by
  intro h
  cases h with
  | here h _ _ _ => exact absurd ((named_iff _ _).mp h) (by decide)
  | inside h1 h2 =>
    rw [show Xml.children (.mk "ProcessList" [] none [exDoubler []]) = [exDoubler []] from rfl,
      List.mem_singleton] at h1
    subst h1
    cases h2 with
    | here h _ _ _ => exact absurd ((named_iff _ _).mp h) (by decide)
    | inside h1 h2 =>
      rw [show (exDoubler []).children = [.mk "Array" [("dim", "3 3 3")]
        (some "2 0 0 0 2 0 0 0 2") []] from rfl, List.mem_singleton] at h1
      subst h1
      cases h2 with
      | here h _ _ _ => exact absurd ((named_iff _ _).mp h) (by decide)
      | inside h1 h2 => cases h1

example : readFile ratArith 3 (fun q => if q = "luts/b.clf" then besideFs "b.clf" else none) 3 true "luts/b.clf" =
    readFile ratArith 3 besideFs 3 true "b.clf" :=
  C160_alone_partial _ _ _ _ _ _ _ _ rfl (fun q h => exDoubler_names q h)

theorem referTo_names (q r : String) (h : Spec.RefersTo (referTo q) r) (hq : Spec.FromRoot q) : r = q := by
  cases h with
  | here h _ _ _ =>
    exact absurd ((named_iff _ _).mp h) (show ¬ "Reference" = elementType "ProcessList" by decide)
  | inside h1 h2 =>
    rw [show (referTo q).children = [.mk "Reference" [("path", q)] none []] from rfl,
      List.mem_singleton] at h1
    subst h1
    cases h2 with
    | @here _ _ path _ _ _ h hj =>
      have hp : path = q := by
        rcases h with h | ⟨h, _⟩
        · simp only [Xml.attrs, List.mem_singleton, Prod.mk.injEq, true_and] at h; exact h
        · exact absurd h (by simp [Xml.attrs])
      subst hp
      obtain ⟨t, ht⟩ := hq
      have := joinPath_joins _ _ _ hj
      unfold joinPath at this
      simp only [ht, List.head?_cons, if_true] at this
      cases this; rfl
    | inside h1 h2 => cases h1

example (p p' : String) (h : ¬ Spec.FromRoot p) (h' : ¬ Spec.FromRoot p') (fuel : ℕ) :
    readFile ratArith 3 (rootFs p') fuel true p' = readFile ratArith 3 (rootFs p) fuel true p := by
  have hb : Spec.FromRoot "/b.clf" := ⟨"b.clf".toList, by decide⟩
  have e : ∀ p, ¬ Spec.FromRoot p → rootFs p p = some (.doc (referTo "/b.clf")) := by
    intro p hp
    unfold rootFs
    rw [if_neg (fun e : p = _ => hp (e ▸ hb)), if_pos rfl]
  apply C160_root_partial
  · intro q hq
    unfold rootFs
    by_cases h1 : q = "/b.clf"
    · rw [if_pos h1, if_pos h1]
      exact ⟨rfl, fun r hr => absurd hr (exDoubler_names r)⟩
    · rw [if_neg h1, if_neg h1, if_neg (fun e : q = p' => h' (e ▸ hq)),
        if_neg (fun e : q = p => h (e ▸ hq))]
      exact ⟨rfl, trivial⟩
  · rw [e p h, e p' h']
  · rw [e p h]
    intro r hr
    rw [referTo_names _ _ hr hb]
    exact hb

end CLF
