import Verif.Lemmas.ReadFile
import Verif.Props.Bypass
import Verif.Props.Nodes
import Mathlib.Data.Rat.Floor

/-! # Files and references -/

set_option linter.unusedSectionVars false

namespace CLF

variable {K : Type} [Field K] [LinearOrder K] [IsStrictOrderedRing K] [FloorRing K]

/-! ### C72 -/

/-- In a set of files each of which refers to one of the set, no file can be read,
whatever the recursion limit. -/
theorem C72_cycle (A : Arith K) (compat : ℕ) (fs : String → Option File) (S : Set String)
    (hS : ∀ p ∈ S, ∃ x, (fs p = some (.doc x) ∨ fs p = some (.gz x)) ∧
      ∃ c q, Spec.Member x c ∧ Spec.RefTo c q ∧ q ∈ S)
    (fuel : ℕ) (strict : Bool) (p : String) (hp : p ∈ S) (l : PList K) :
    readFile A compat fs fuel strict p ≠ .ok l := by
  induction fuel using Nat.strong_induction_on generalizing strict p l with
  | _ fuel ih =>
    intro h
    obtain ⟨k, x, rfl, hx, hr⟩ := readFile_ok _ _ _ _ _ _ _ h
    obtain ⟨x', hx', c, q, hc, hq, hqS⟩ := hS p hp
    have : x' = x := by
      rcases hx with hx | hx <;> rcases hx' with hx' | hx' <;> rw [hx] at hx' <;> cases hx' <;> rfl
    subst this
    obtain ⟨n, hn⟩ := member_read _ _ _ _ _ _ hr c hc
      (by rw [← (named_iff _ _).mp hq.1]; decide)
    obtain ⟨y, hy, _⟩ := hS q hqS
    have hex : ∃ f, fs q = some f := by rcases hy with hy | hy <;> exact ⟨_, hy⟩
    obtain ⟨f, hf⟩ := hex
    rcases readRef_eq _ _ _ _ _ _ hq _ hn with ⟨ns, b, h1, _⟩ | ⟨b, h1, _⟩
    · unfold loader at h1
      rw [hf] at h1
      simp only at h1
      obtain ⟨l', h2, _⟩ := py_bind_eq_ok.mp h1
      exact ih k (by omega) false q hqS l' h2
    · unfold loader at h1
      rw [hf] at h1
      simp only at h1
      obtain ⟨l', h2, h3⟩ := py_bind_eq_ok.mp h1
      cases h3

/-- A file that refers to itself from inside a group. -/
example : ∃ (x : Xml) (fs : String → Option File), fs "a.clf" = some (.doc x) ∧
    ∃ c, Spec.Member x c ∧ Spec.RefTo c "a.clf" :=
  ⟨.mk "ProcessList" [] none [.mk "Group" [] none [.mk "Reference" [("path", "a.clf")] none []]],
    fun _ => some (.doc (.mk "ProcessList" [] none
      [.mk "Group" [] none [.mk "Reference" [("path", "a.clf")] none []]])), rfl, _,
    .nested (.top (List.mem_singleton.mpr rfl)) ((named_iff _ _).mpr (by decide))
      (List.mem_singleton.mpr rfl),
    (named_iff _ _).mpr (by decide), by decide, "", "a.clf", List.mem_singleton.mpr rfl, by decide,
    by decide, .inr ⟨by decide, rfl⟩, .bare (by decide)⟩

/-! ### C42 -/

/-- A Reference to a file that can be read processes like the list in that file. -/
theorem C42_reference (A : Arith K) (compat : ℕ) (fs : String → Option File) (fuel : ℕ) (strict : Bool)
    (c : Xml) (p : String) (hc : Spec.RefTo c p) (l : PList K)
    (hl : readFile A compat fs fuel false p = .ok l) (n : Node K)
    (hn : readNode A compat (fun q => match fs q with
      | none => .ok none
      | some _ => do let l ← readFile A compat fs fuel false q; pure (some l.processes)) strict c = .ok n)
    (compat' stride : ℕ) (v : List (Flt K)) :
    (do let r ← n.process A compat' stride v; .ok r.out) = processList A compat' l.processes v stride := by
  obtain ⟨k, x, rfl, hx, hr⟩ := readFile_ok _ _ _ _ _ _ _ hl
  have hex : ∃ f, fs p = some f := by rcases hx with hx | hx <;> exact ⟨_, hx⟩
  obtain ⟨f, hf⟩ := hex
  rcases readRef_eq _ _ _ _ _ _ hc _ hn with ⟨ns, b, h1, rfl⟩ | ⟨b, h1, _⟩
  · rw [hf] at h1
    simp only [hl, py_ok_bind] at h1
    cases h1
    rw [Node.process, processList]
    cases runNodes A compat' stride false none l.processes ⟨v.map A.f32, v.map A.f32, true⟩ <;> rfl
  · rw [hf] at h1
    simp only [hl, py_ok_bind] at h1
    cases h1

/-- A Reference to a file that does not exist leaves the values alone. -/
theorem C42_missing (A : Arith K) (compat : ℕ) (fs : String → Option File) (fuel : ℕ) (strict : Bool)
    (c : Xml) (p : String) (hc : Spec.RefTo c p) (hp : fs p = none) (n : Node K)
    (hn : readNode A compat (fun q => match fs q with
      | none => .ok none
      | some _ => do let l ← readFile A compat fs fuel false q; pure (some l.processes)) strict c = .ok n)
    (compat' stride : ℕ) (v : List (Flt K)) :
    n.process A compat' stride v = .ok ⟨v, v, true⟩ := by
  rcases readRef_eq _ _ _ _ _ _ hc _ hn with ⟨ns, b, h1, _⟩ | ⟨b, h1, rfl⟩
  · rw [hp] at h1; cases h1
  · rw [Node.process]

/-- Such a Reference is read without error, unless strict reading meets a dynamic
parameter. -/
theorem C42_missing_reads (A : Arith K) (compat : ℕ) (fs : String → Option File) (fuel : ℕ)
    (c : Xml) (p : String) (hc : Spec.RefTo c p) (hp : fs p = none) :
    ∃ n, readNode A compat (fun q => match fs q with
      | none => .ok none
      | some _ => do let l ← readFile A compat fs fuel false q; pure (some l.processes)) false c = .ok n := by
  have ht : elementType c.tag = "Reference" := ((named_iff _ _).mp hc.1).symm
  rw [readNode_mk, ht, classOf_reference]
  simp only
  have hok : ∀ (cs : List Xml) (b : Base K), ∃ b', cs.foldlM (readRefStep compat false) b = .ok b' := by
    intro cs
    induction cs with
    | nil => intro b; exact ⟨b, rfl⟩
    | cons d cs ih =>
      intro b
      rw [List.foldlM_cons]
      have : ∃ b', readRefStep compat false b d = .ok b' := by
        unfold readRefStep readCommon
        simp only
        by_cases h1 : elementType d.tag = "Description"
        · rw [if_pos h1]; exact ⟨_, rfl⟩
        · rw [if_neg h1]
          by_cases h2 : elementType d.tag = "DynamicParameter"
          · rw [if_pos h2]
            cases hasFeature compat autodesk
            · exact ⟨_, rfl⟩
            · cases d.attrs.get? "param" <;> exact ⟨_, rfl⟩
          · rw [if_neg h2]; exact ⟨_, rfl⟩
      obtain ⟨b', h1⟩ := this
      obtain ⟨b'', h2⟩ := ih b'
      exact ⟨b'', by rw [h1]; exact h2⟩
  obtain ⟨b', h1⟩ := hok c.children (readAttrs defaultBase c.attrs)
  rw [h1, py_ok_bind]
  unfold resolveRef
  rw [refTo_path c p hc b' (readRefFold_attrs _ _ _ _ _ h1), py_ok_bind]
  simp only [hp]
  exact ⟨_, rfl⟩

example : Spec.RefTo (.mk "Reference" [("basePath", "/luts"), ("path", "a.clf")] none []) "/luts/a.clf" :=
  ⟨(named_iff _ _).mpr (by decide), by decide, "/luts", "a.clf", by decide, by decide, by decide,
    .inl ⟨by decide, by decide, by decide⟩,
    .plain (t := "/lut".toList) (c := 's') (by decide) (by decide) (by decide)⟩

/-! ### C40 -/

/-- A matrix that doubles, as written in a file. -/
def exDoubler (attrs : Dict String) : Xml := .mk "Matrix"
  ([("inBitDepth", "32f"), ("outBitDepth", "32f")] ++ attrs) none
  [.mk "Array" [("dim", "3 3 3")] (some "2 0 0 0 2 0 0 0 2") []]

/-- `bypass="False"` in a file bypasses the node: this list leaves its input alone, though
it doubles without the attribute. -/
theorem C40_false : ∃ l l' : PList ℚ,
    readList ratArith 1 (fun _ => .ok none) true
      (.mk "ProcessList" [] none [exDoubler [("bypass", "False")]]) = .ok l ∧
    processList ratArith 1 l.processes [.fin 1, .fin 2, .fin 3] 3 = .ok [.fin 1, .fin 2, .fin 3] ∧
    readList ratArith 1 (fun _ => .ok none) true (.mk "ProcessList" [] none [exDoubler []]) = .ok l' ∧
    processList ratArith 1 l'.processes [.fin 1, .fin 2, .fin 3] 3 = .ok [.fin 2, .fin 4, .fin 6] :=
  ⟨_, _, rfl, by decide +kernel, rfl, by decide +kernel⟩

/-- This is so for every node and every text of the attribute. -/
theorem C40_false_every (A : Arith K) (compat : ℕ) (load : String → Py (Option (List (Node K))))
    (strict : Bool) (c : Xml) (hc : (c.attrs.map Prod.fst).Nodup) (t : String)
    (ht : ("bypass", t) ∈ c.attrs) (n : Node K) (hn : readNode A compat load strict c = .ok n)
    (compat' stride : ℕ) (hf : Spec.enabled compat' 1) (v : List (Flt K)) :
    processList A compat' [n] v stride = .ok (v.map A.f32) := by
  have hb := readNode_bypass A compat load strict c n hn hc
  rw [Dict.get?_of_mem _ hc _ _ ht] at hb
  have := C39_first A compat' stride ((enabled_iff _ _).mp hf) n [] (by rw [hb]; simp)
    (by intro m hm; cases hm) v
  rw [this]; rfl

/-- A node without the attribute is processed, and so is every node when the Autodesk
features are disabled.  Missing: the attribute with the value `False`. -/
theorem C40_partial (A : Arith K) (compat : ℕ) (load : String → Py (Option (List (Node K))))
    (strict : Bool) (c : Xml) (hc : (c.attrs.map Prod.fst).Nodup) (n : Node K)
    (hn : readNode A compat load strict c = .ok n) (compat' stride : ℕ)
    (h : "bypass" ∉ c.attrs.map Prod.fst ∨ ¬ Spec.enabled compat' 1) (v : List (Flt K)) :
    processList A compat' [n] v stride =
      (do let r ← n.process A compat' stride (v.map A.f32); .ok r.out) := by
  have h1 : n.attr "bypass" = none ∨ hasFeature compat' autodesk = false := by
    rcases h with h | h
    · left
      rw [readNode_bypass A compat load strict c n hn hc, (Dict.get?_eq_none _ _).mpr h]; rfl
    · right
      rw [enabled_iff] at h
      exact Bool.eq_false_iff.mpr h
  rw [processList_eq, runOut, stepOut_plain (by
    rcases h1 with h1 | h1
    · exact .inl h1
    · exact .inr ⟨rfl, h1⟩)]
  unfold Node.outOf
  cases n.process A compat' stride (v.map A.f32) <;> rfl

/-! ### C51 -/

/-- A strict reader reports an unknown node of a plain file, but not of the same file
compressed. -/
theorem C51_false : ∃ x : Xml, ∀ (A : Arith ℚ) (load : String → Py (Option (List (Node ℚ)))),
    readContents 2 (readList A 2 load true) (.doc x) = .error .unknownProcessNode ∧
    readContents 2 (readList A 2 load true) (.gz x) = .error .parseError :=
  ⟨.mk "ProcessList" [] none [.mk "LUT2D" [] none []], fun _ _ => ⟨rfl, rfl⟩⟩

/-- With compression enabled, a file is read exactly when it is with any of the files
involved compressed or not, and with the same result.  Missing: the same error. -/
theorem C51_partial (A : Arith K) (compat : ℕ) (hd : Spec.enabled compat 2)
    (fs fs' : String → Option File) (h : Spec.SameFiles fs fs') (fuel : ℕ) (strict : Bool) (p : String)
    (l : PList K) :
    readFile A compat fs fuel strict p = .ok l ↔ readFile A compat fs' fuel strict p = .ok l := by
  refine readFile_body A compat ((enabled_iff _ _).mp hd) fs fs' (fun q => ?_) fuel strict p l
  rcases h q with h | ⟨x, h1, h2⟩ | ⟨x, h1, h2⟩
  · rw [h]
  · rw [h1, h2]; rfl
  · rw [h1, h2]; rfl

example (A : Arith ℚ) : ∃ l, readFile A 2 (fun _ => some (.gz (.mk "ProcessList" [] none
    [.mk "Matrix" [] none []]))) 1 true "x" = .ok l := ⟨_, rfl⟩

end CLF
