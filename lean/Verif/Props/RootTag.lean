import Verif.Props.ReadFile
import Verif.Props.Read
import Verif.Model.XmlText
import Verif.Lemmas.XmlSpaces
import Verif.Lemmas.LeOk

/-! # Property C142, and more about C04 and C72: documents and referenced files -/

set_option linter.unusedSectionVars false

namespace CLF

variable {K : Type} [Field K] [LinearOrder K] [IsStrictOrderedRing K] [FloorRing K]

/-! ### C142: the root element -/

/-- The document with another name for its root element. -/
def Spec.rename (name : String) : Xml → Xml
  | .mk _ attrs text children => .mk name attrs text children

/-- The file with another name for the root element of its document. -/
def Spec.renameFile (name : String) : File → File
  | .doc x => .doc (Spec.rename name x)
  | .gz x => .gz (Spec.rename name x)
  | f => f

theorem readList_rename (A : Arith K) (compat : ℕ) (load : String → Py (Option (List (Node K))))
    (strict : Bool) (name : String) (x : Xml) :
    readList A compat load strict (Spec.rename name x) = readList A compat load strict x := by
  cases x; rfl

theorem readContents_rename {α : Type} (compat : ℕ) (rd : Xml → Py α) (name : String)
    (h : ∀ x, rd (Spec.rename name x) = rd x) (f : File) :
    readContents compat rd (Spec.renameFile name f) = readContents compat rd f := by
  cases f with
  | doc x => exact h x
  | gz x => simp only [Spec.renameFile, readContents, h]
  | garbage => rfl
  | unreadable => rfl

/-- C142 is false: renaming the root elements of all files, whatever the names, changes nothing about
what is read or which errors are raised, strictly or not. -/
theorem C142_root (A : Arith K) (compat : ℕ) (fs : String → Option File) (name : String → String)
    (fuel : ℕ) (strict : Bool) (p : String) :
    readFile A compat (fun q => (fs q).map (Spec.renameFile (name q))) fuel strict p
      = readFile A compat fs fuel strict p := by
  induction fuel generalizing strict p with
  | zero => rw [readFile, readFile]
  | succ fuel ih =>
    rw [readFile_succ, readFile_succ]
    have hl : loader A compat (fun q => (fs q).map (Spec.renameFile (name q))) fuel
        = loader A compat fs fuel := by
      funext q
      unfold loader
      simp only [ih]
      cases fs q <;> rfl
    rw [hl]
    cases fs p with
    | none => rfl
    | some f =>
      exact readContents_rename _ _ _ (readList_rename _ _ _ _ _) _

/-- No element that a process list may have. -/
def Spec.Foreign (x : Xml) : Prop := ∀ c ∈ x.children, ∀ name, Spec.Named c.tag name →
  name ∉ Spec.nodeNames ∧ name ∉ Spec.infoNames

theorem foreign_class {x c : Xml} (h : Spec.Foreign x) (hc : c ∈ x.children) :
    classOf (K := K) (elementType c.tag) = none := by
  rw [classOf_none]
  have := h c hc _ ((named_iff _ _).mpr rfl)
  tauto

/-- C142 is false: a document without any element of process lists is read as a list of no nodes,
which leaves every image as it is apart from rounding it. -/
theorem C142_foreign (A : Arith K) (compat : ℕ) (fs : String → Option File) (p : String) (x : Xml)
    (hp : fs p = some (.doc x)) (hx : Spec.Foreign x) (fuel : ℕ) :
    ∃ l, readFile A compat fs (fuel + 1) false p = .ok l ∧ l.processes = [] ∧ l.elements = [] ∧
      ∀ values stride, processList A compat l.processes values stride = .ok (values.map A.f32) := by
  have key : ∀ (cs : List Xml), (∀ c ∈ cs, classOf (K := K) (elementType c.tag) = none) → ∀ l : PList K,
      cs.foldlM (readListStep A compat (loader A compat fs fuel) false) l = .ok l := by
    intro cs
    induction cs with
    | nil => exact fun _ l => rfl
    | cons c cs ih =>
      intro h l
      have h1 : readListStep A compat (loader A compat fs fuel) false l c = .ok l := by
        unfold readListStep
        simp only [h c (by simp)]
        rfl
      rw [List.foldlM_cons, h1, py_ok_bind, ih fun c hc => h c (by simp [hc])]
  rw [readFile_succ, hp]
  refine ⟨_, key x.children (fun c hc => foreign_class hx hc) _, rfl, rfl, fun values stride => rfl⟩

/-- C142, as far as it holds: a strict read refuses a document with a child that is no element of
process lists.  Missing: the root element itself. -/
theorem C142_partial (A : Arith K) (compat : ℕ) (fs : String → Option File) (p : String) (x c : Xml)
    (hp : fs p = some (.doc x)) (hc : c ∈ x.children)
    (hn : ∀ name, Spec.Named c.tag name → name ∉ Spec.nodeNames ∧ name ∉ Spec.infoNames) (fuel : ℕ) :
    ∃ e, readFile A compat fs (fuel + 1) true p = .error e := by
  rw [readFile_succ, hp]
  refine C03_rejects A compat _ x c hc ?_
  rintro ⟨name, h1, h2, -⟩
  have := hn name h1
  tauto

/-- A web page is a process list, also to a strict reader if it is empty. -/
theorem C142_false (A : Arith ℚ) (load : String → Py (Option (List (Node ℚ)))) :
    readText A 0 load true "<html></html>".toList = .ok {} ∧
    ∃ l, readText A 0 load false "<html><body>text</body></html>".toList = .ok l ∧ l.processes = [] := by
  have h1 : XmlText.parse "<html></html>".toList = .ok (.mk "html" [] none []) := XmlText.parse_eq _ _ (by decide +kernel)
  have h2 : XmlText.parse "<html><body>text</body></html>".toList
      = .ok (.mk "html" [] none [.mk "body" [] (some "text") []]) := XmlText.parse_eq _ _ (by decide +kernel)
  refine ⟨?_, ?_⟩
  · unfold readText
    rw [h1]
    rfl
  · unfold readText
    rw [h2]
    exact ⟨_, rfl, rfl⟩

example : Spec.Foreign (.mk "html" [] none [.mk "body" [] (some "text") []]) := by
  intro c hc name hn
  obtain rfl : c = .mk "body" [] (some "text") [] := by simpa [Xml.children] using hc
  rw [named_iff] at hn
  subst hn
  decide

/-! ### C04: referenced files -/

/-- C04 is false for references too: a strict read accepts a file that refers to one which a strict
read refuses. -/
theorem C04_reference_false (A : Arith ℚ) (fuel : ℕ) :
    ∃ fs : String → Option File,
      (∃ l, readFile A 1 fs (fuel + 2) true "a.clf" = .ok l) ∧
      ∃ e, readFile A 1 fs (fuel + 2) true "b.clf" = .error e := by
  refine ⟨fun p =>
    if p = "a.clf" then some (.doc (.mk "ProcessList" [] none [.mk "Reference" [("path", "b.clf")] none []]))
    else if p = "b.clf" then some (.doc (.mk "ProcessList" [] none [.mk "LUT2D" [] none []]))
    else none, ⟨_, rfl⟩, ⟨_, rfl⟩⟩

/-! ### C72: the recursion limit -/

theorem readNode_more (A : Arith K) (compat : ℕ) (load load' : String → Py (Option (List (Node K))))
    (hl : ∀ p, LeOk (load p) (load' p)) (x : Xml) : ∀ strict : Bool,
    LeOk (readNode A compat load strict x) (readNode A compat load' strict x) := by
  induction x using Xml.ind with
  | h t a s cs ih =>
    intro strict
    rw [readNode_mk, readNode_mk]
    simp only [Xml.tag, Xml.attrs, Xml.children]
    cases hc : classOf (K := K) (elementType t) with
    | none => exact fun _ h => h
    | some cls =>
      cases cls with
      | leaf k b => exact fun _ h => h
      | group =>
        simp only [readGroup_eq]
        refine LeOk.bind (LeOk.foldlM _ (fun s c hc => ?_) _) fun _ _ h => h
        unfold readGroupStep
        refine LeOk.bind (fun _ h => h) fun o => ?_
        cases o with
        | some b => exact fun _ h => h
        | none =>
          simp only
          cases classOf (K := K) (elementType c.tag) with
          | none => exact fun _ h => h
          | some cls =>
            simp only
            by_cases hn : cls.isNode = true
            · rw [if_pos hn, if_pos hn]
              exact (ih c hc false).bind fun _ _ h => h
            · rw [if_neg hn, if_neg hn]; exact fun _ h => h
      | reference =>
        simp only []
        refine LeOk.bind (fun _ h => h) fun b => ?_
        unfold resolveRef
        exact LeOk.bind (fun _ h => h) fun p => (hl p).bind fun o _ h => h
      | processNode => exact fun _ h => h
      | comment t => exact fun _ h => h
      | info => exact fun _ h => h

theorem readList_more (A : Arith K) (compat : ℕ) (load load' : String → Py (Option (List (Node K))))
    (hl : ∀ p, LeOk (load p) (load' p)) (strict : Bool) (x : Xml) :
    LeOk (readList A compat load strict x) (readList A compat load' strict x) := by
  unfold readList
  refine LeOk.foldlM _ (fun l c _ => ?_) _
  unfold readListStep
  simp only
  cases classOf (K := K) (elementType c.tag) with
  | none => exact fun _ h => h
  | some cls =>
    simp only
    by_cases hn : cls.isNode = true
    · rw [if_pos hn, if_pos hn]
      exact (readNode_more A compat load load' hl c strict).bind fun _ _ h => h
    · rw [if_neg hn, if_neg hn]; exact fun _ h => h

theorem readFile_more (A : Arith K) (compat : ℕ) (fs : String → Option File) (fuel : ℕ) :
    ∀ (strict : Bool) (p : String),
      LeOk (readFile A compat fs fuel strict p) (readFile A compat fs (fuel + 1) strict p) := by
  induction fuel with
  | zero =>
    intro strict p l h
    rw [readFile] at h
    cases h
  | succ fuel ih =>
    intro strict p
    rw [readFile_succ, readFile_succ]
    have hl : ∀ q, LeOk (loader A compat fs fuel q) (loader A compat fs (fuel + 1) q) := by
      intro q
      unfold loader
      cases fs q with
      | none => exact fun _ h => h
      | some f => exact (ih false q).bind fun _ _ h => h
    have hx := readList_more A compat _ _ hl strict
    cases fs p with
    | none => exact fun _ h => h
    | some f =>
      cases f with
      | doc x => exact hx x
      | gz x =>
        intro l h
        simp only [readContents] at h ⊢
        by_cases hd : hasFeature compat duiker = true
        · rw [if_pos hd] at h ⊢
          cases hr : readList A compat (loader A compat fs fuel) strict x with
          | error e => rw [hr] at h; cases h
          | ok l' =>
            rw [hr] at h
            rw [hx x l' hr]
            exact h
        · rw [if_neg hd] at h; cases h
      | garbage => exact fun _ h => h
      | unreadable => exact fun _ h => h

/-- C72: the recursion limit decides whether a list is read, but not which: two limits that both
suffice give the same list, and a higher limit suffices if a lower one does. -/
theorem C72_limit (A : Arith K) (compat : ℕ) (fs : String → Option File) (n m : ℕ) (strict : Bool)
    (p : String) (l : PList K) (h : readFile A compat fs n strict p = .ok l) :
    (n ≤ m → readFile A compat fs m strict p = .ok l) ∧
      ∀ l', readFile A compat fs m strict p = .ok l' → l' = l := by
  have up : ∀ (k d : ℕ) (l : PList K), readFile A compat fs k strict p = .ok l →
      readFile A compat fs (k + d) strict p = .ok l := by
    intro k d l hk
    induction d with
    | zero => exact hk
    | succ d ih => exact readFile_more A compat fs (k + d) strict p l ih
  refine ⟨fun hnm => ?_, fun l' h' => ?_⟩
  · obtain ⟨d, rfl⟩ := Nat.exists_eq_add_of_le hnm
    exact up n d l h
  · have h1 := up n m l h
    have h2 := up m n l' h'
    rw [Nat.add_comm] at h2
    rw [h1] at h2
    cases h2
    rfl

/-- A file that refers to another is read with a limit of two, and no less. -/
example (A : Arith ℚ) :
    let fs : String → Option File := fun p =>
      if p = "a.clf" then some (.doc (.mk "ProcessList" [] none [.mk "Reference" [("path", "b.clf")] none []]))
      else if p = "b.clf" then some (.doc (.mk "ProcessList" [] none []))
      else none
    (∃ l, readFile A 1 fs 2 false "a.clf" = .ok l) ∧ readFile A 1 fs 1 false "a.clf" = .error .recursion :=
  ⟨⟨_, rfl⟩, rfl⟩

end CLF
