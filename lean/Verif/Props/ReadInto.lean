import Verif.Model.ReadInto
import Verif.Lemmas.Dict
import Verif.Props.Nodes
import Verif.Props.Scripts

/-! # Reading into a list that already exists

C163: reading a file into a list adds the content of the file to that of the list. -/

set_option linter.unusedSectionVars false

namespace CLF

variable {K : Type} [Field K] [LinearOrder K] [IsStrictOrderedRing K] [FloorRing K]

namespace Spec

/-- `r` is `l` with the content of `d` after it; attributes of `d` replace those of `l`. -/
structure Added (l d r : PList K) : Prop where
  processes : r.processes = l.processes ++ d.processes
  elements : r.elements = l.elements ++ d.elements
  values : r.values = l.values
  attrs : ∀ k, r.attrs.get? k = (d.attrs.get? k).or (l.attrs.get? k)

end Spec

/-- `d` put behind `l`, with attributes `a`. -/
def PList.behind (l : PList K) (a : Dict AVal) (d : PList K) : PList K :=
  { attrs := a, values := l.values, elements := l.elements ++ d.elements, processes := l.processes ++ d.processes }

theorem readListStep_behind (A : Arith K) (compat : ℕ) (load : String → Py (Option (List (Node K)))) (strict : Bool)
    (l : PList K) (a : Dict AVal) (d : PList K) (c : Xml) :
    readListStep A compat load strict (l.behind a d) c = (readListStep A compat load strict d c).map (l.behind a) := by
  unfold readListStep
  simp only
  cases classOf (K := K) (elementType c.tag) with
  | none => cases strict <;> rfl
  | some cls =>
    simp only
    cases cls.isNode with
    | false => simp [PList.behind, Except.map]
    | true =>
      simp only [if_true]
      cases readNode A compat load strict c with
      | error e => rfl
      | ok n =>
        simp only [py_ok_bind]
        cases vendorOf (elementType c.tag) with
        | none => simp [PList.behind, Except.map, py_pure]
        | some f =>
          simp only
          split_ifs
          · rfl
          · simp [PList.behind, Except.map, py_pure]

/-- Reading into `l` is reading anew, as far as it goes. -/
theorem readChildrenInto_spec (A : Arith K) (compat : ℕ) (load : String → Py (Option (List (Node K)))) (strict : Bool)
    (l : PList K) (a : Dict AVal) (cs : List Xml) : ∀ d : PList K,
    match cs.foldlM (readListStep A compat load strict) d with
    | .ok r => readChildrenInto A compat load strict cs (l.behind a d) = (l.behind a r, none)
    | .error e => ∃ k < cs.length, ∃ r, (cs.take k).foldlM (readListStep A compat load strict) d = .ok r ∧
        (cs.take (k + 1)).foldlM (readListStep A compat load strict) d = .error e ∧
        readChildrenInto A compat load strict cs (l.behind a d) = (l.behind a r, some e) := by
  induction cs with
  | nil => intro d; rfl
  | cons c cs ih =>
    intro d
    rw [List.foldlM_cons, readChildrenInto, readListStep_behind]
    cases h : readListStep A compat load strict d c with
    | error e =>
      refine ⟨0, by simp, d, rfl, ?_, rfl⟩
      rw [List.take_succ_cons, List.foldlM_cons, h]
      rfl
    | ok d' =>
      have := ih d'
      simp only [py_ok_bind]
      cases h2 : cs.foldlM (readListStep A compat load strict) d' with
      | ok r =>
        rw [h2] at this
        exact this
      | error e =>
        rw [h2] at this
        obtain ⟨k, hk, r, h3, h4, h5⟩ := this
        refine ⟨k + 1, by simpa using hk, r, ?_, ?_, h5⟩
        · rw [List.take_succ_cons, List.foldlM_cons, h]
          exact h3
        · rw [List.take_succ_cons, List.foldlM_cons, h]
          exact h4

theorem setAll_get? (xs : Dict String) (d : Dict AVal) (k : String) :
    Dict.get? (xs.foldl (fun (d : Dict AVal) kv => d.set kv.1 (.str kv.2)) d) k
      = (Dict.get? (xs.foldl (fun (d : Dict AVal) kv => d.set kv.1 (.str kv.2)) []) k).or (d.get? k) := by
  induction xs using List.reverseRecOn with
  | nil => rfl
  | append_singleton xs x ih =>
    rw [List.foldl_append, List.foldl_append, List.foldl_cons, List.foldl_cons, List.foldl_nil, List.foldl_nil,
      Dict.get?_set, Dict.get?_set, ih]
    split_ifs <;> rfl

theorem foldStep_attrs (A : Arith K) (compat : ℕ) (load : String → Py (Option (List (Node K)))) (strict : Bool)
    (cs : List Xml) (d r : PList K) (h : cs.foldlM (readListStep A compat load strict) d = .ok r) : r.attrs = d.attrs := by
  induction cs generalizing d with
  | nil => cases h; rfl
  | cons c cs ih =>
    rw [List.foldlM_cons] at h
    obtain ⟨d', h1, h2⟩ := py_bind_eq_ok.mp h
    rw [ih d' h2]
    unfold readListStep at h1
    simp only at h1
    split at h1
    · split_ifs at h1
      cases h1; rfl
    · split_ifs at h1
      · obtain ⟨n, _, h1⟩ := py_bind_eq_ok.mp h1
        split at h1
        · split_ifs at h1
          cases h1; rfl
        · cases h1; rfl
      · cases h1; rfl

/-- Reading a document into a list: what a document read anew gives is added, and an error is the same error. -/
theorem C163_document (A : Arith K) (compat : ℕ) (load : String → Py (Option (List (Node K)))) (strict : Bool)
    (l : PList K) (x : Xml) :
    match readList A compat load strict x with
    | .ok d => (readListInto A compat load strict l x).2 = none ∧ Spec.Added l d (readListInto A compat load strict l x).1
    | .error e => (readListInto A compat load strict l x).2 = some e := by
  have key := readChildrenInto_spec A compat load strict l (x.attrs.foldl (fun d kv => d.set kv.1 (.str kv.2)) l.attrs)
    x.children { attrs := x.attrs.foldl (fun d kv => d.set kv.1 (.str kv.2)) [] }
  have hb : l.behind (x.attrs.foldl (fun d kv => d.set kv.1 (.str kv.2)) l.attrs)
      { attrs := x.attrs.foldl (fun d kv => d.set kv.1 (.str kv.2)) [] }
      = { l with attrs := x.attrs.foldl (fun d kv => d.set kv.1 (.str kv.2)) l.attrs } := by
    simp [PList.behind]
  rw [hb] at key
  unfold readList readListInto
  simp only
  cases h : x.children.foldlM (readListStep A compat load strict)
      { attrs := x.attrs.foldl (fun d kv => d.set kv.1 (.str kv.2)) [] } with
  | ok d =>
    rw [h] at key
    simp only at key ⊢
    rw [key]
    refine ⟨rfl, rfl, rfl, rfl, fun k => ?_⟩
    rw [foldStep_attrs A compat load strict _ _ _ h]
    exact setAll_get? x.attrs l.attrs k
  | error e =>
    rw [h] at key
    obtain ⟨k, _, r, _, _, h5⟩ := key
    simp only
    rw [h5]

/-- A failing read leaves behind what the elements before the failing one have given. -/
theorem C163_failed (A : Arith K) (compat : ℕ) (load : String → Py (Option (List (Node K)))) (strict : Bool)
    (l : PList K) (x : Xml) (e : PyErr) (h : (readListInto A compat load strict l x).2 = some e) :
    ∃ k < x.children.length, ∃ d,
      readList A compat load strict (.mk x.tag x.attrs x.text (x.children.take k)) = .ok d ∧
      readList A compat load strict (.mk x.tag x.attrs x.text (x.children.take (k + 1))) = .error e ∧
      Spec.Added l d (readListInto A compat load strict l x).1 := by
  have key := readChildrenInto_spec A compat load strict l (x.attrs.foldl (fun d kv => d.set kv.1 (.str kv.2)) l.attrs)
    x.children { attrs := x.attrs.foldl (fun d kv => d.set kv.1 (.str kv.2)) [] }
  have hb : l.behind (x.attrs.foldl (fun d kv => d.set kv.1 (.str kv.2)) l.attrs)
      { attrs := x.attrs.foldl (fun d kv => d.set kv.1 (.str kv.2)) [] }
      = { l with attrs := x.attrs.foldl (fun d kv => d.set kv.1 (.str kv.2)) l.attrs } := by
    simp [PList.behind]
  rw [hb] at key
  unfold readListInto at h ⊢
  cases h2 : x.children.foldlM (readListStep A compat load strict)
      { attrs := x.attrs.foldl (fun d kv => d.set kv.1 (.str kv.2)) [] } with
  | ok d =>
    rw [h2] at key
    simp only at key
    rw [key] at h
    cases h
  | error e' =>
    rw [h2] at key
    obtain ⟨k, hk, r, h3, h4, h5⟩ := key
    rw [h5] at h ⊢
    cases h
    refine ⟨k, hk, r, h3, h4, rfl, rfl, rfl, fun j => ?_⟩
    rw [foldStep_attrs A compat load strict _ _ _ h3]
    exact setAll_get? x.attrs l.attrs j

/-- Reading a file into a list: what the file gives when it is read anew is added, and an error is the same error. -/
theorem C163_file (A : Arith K) (compat : ℕ) (fs : String → Option File) (fuel : ℕ) (strict : Bool) (path : String)
    (l : PList K) :
    match readFile A compat fs (fuel + 1) strict path with
    | .ok d => (readFileInto A compat fs fuel strict path l).2 = none ∧
        Spec.Added l d (readFileInto A compat fs fuel strict path l).1
    | .error e => (readFileInto A compat fs fuel strict path l).2 = some e := by
  rw [readFile]
  unfold readFileInto
  cases fs path with
  | none => rfl
  | some f =>
    simp only
    cases f with
    | garbage => rfl
    | unreadable => rfl
    | doc x => exact C163_document A compat _ strict l x
    | gz x =>
      unfold readContents
      simp only
      split_ifs with hd
      · have := C163_document A compat (fun p =>
          match fs p with
          | none => .ok none
          | some _ => do
            let l ← readFile A compat fs fuel false p
            pure (some l.processes)) strict l x
        generalize readListInto A compat _ strict l x = q at this ⊢
        cases h : readList A compat (fun p =>
          match fs p with
          | none => .ok none
          | some _ => do
            let l ← readFile A compat fs fuel false p
            pure (some l.processes)) strict x with
        | ok d =>
          rw [h] at this
          obtain ⟨q1, q2⟩ := q
          obtain ⟨h1, h2⟩ := this
          simp only at h1
          subst h1
          exact ⟨rfl, h2⟩
        | error e =>
          rw [h] at this
          obtain ⟨q1, q2⟩ := q
          simp only at this
          subst this
          rfl
      · rfl

/-- What the files that are referred to give. -/
def Spec.loadFrom (A : Arith K) (compat : ℕ) (fs : String → Option File) (fuel : ℕ) (p : String) : Py (Option (List (Node K))) :=
  match fs p with
  | none => .ok none
  | some _ => do
    let l ← readFile A compat fs fuel false p
    pure (some l.processes)

/-- A file that cannot be read leaves the list as it is if there is no document in it, or if it is zipped and the feature
is off; otherwise the list keeps what the elements before the failing one have given, also for zipped files. -/
theorem C163_file_failed (A : Arith K) (compat : ℕ) (fs : String → Option File) (fuel : ℕ) (strict : Bool) (path : String)
    (l : PList K) (e : PyErr) (h : (readFileInto A compat fs fuel strict path l).2 = some e) :
    (readFileInto A compat fs fuel strict path l).1 = l ∧ (∀ x, fs path ≠ some (.doc x)) ∧
        (∀ x, fs path = some (.gz x) → hasFeature compat duiker = false) ∨
    ∃ x, (fs path = some (.doc x) ∨ fs path = some (.gz x) ∧ hasFeature compat duiker = true) ∧
      ∃ k < x.children.length, ∃ d e',
        readList A compat (Spec.loadFrom A compat fs fuel) strict (.mk x.tag x.attrs x.text (x.children.take k)) = .ok d ∧
        readList A compat (Spec.loadFrom A compat fs fuel) strict (.mk x.tag x.attrs x.text (x.children.take (k + 1)))
          = .error e' ∧
        Spec.Added l d (readFileInto A compat fs fuel strict path l).1 := by
  have hr : readFileInto A compat fs fuel strict path l = (match fs path with
      | none => (l, some .ioError)
      | some (.doc x) => readListInto A compat (Spec.loadFrom A compat fs fuel) strict l x
      | some (.gz x) =>
        if hasFeature compat duiker then
          match readListInto A compat (Spec.loadFrom A compat fs fuel) strict l x with
          | (l', none) => (l', none)
          | (l', some _) => (l', some .parseError)
        else (l, some .parseError)
      | some .garbage => (l, some .parseError)
      | some .unreadable => (l, some .ioError)) := rfl
  rw [hr] at h ⊢
  cases hf : fs path with
  | none => exact .inl ⟨rfl, fun x => by simp, fun x => by simp⟩
  | some f =>
    rw [hf] at h
    cases f with
    | garbage => exact .inl ⟨rfl, fun x => by simp, fun x => by simp⟩
    | unreadable => exact .inl ⟨rfl, fun x => by simp, fun x => by simp⟩
    | doc x =>
      obtain ⟨k, hk, d, h1, h2, h3⟩ := C163_failed A compat _ strict l x e h
      exact .inr ⟨x, .inl rfl, k, hk, d, e, h1, h2, h3⟩
    | gz x =>
      simp only at h ⊢
      cases hd : hasFeature compat duiker with
      | false => exact .inl ⟨rfl, fun x => by simp, fun x _ => rfl⟩
      | true =>
        simp only [hd, if_true] at h ⊢
        have key := C163_failed A compat (Spec.loadFrom A compat fs fuel) strict l x
        generalize readListInto A compat (Spec.loadFrom A compat fs fuel) strict l x = q at h key ⊢
        obtain ⟨q1, q2⟩ := q
        cases q2 with
        | none => cases h
        | some e' =>
          obtain ⟨k, hk, d, h1, h2, h3⟩ := key e' rfl
          exact .inr ⟨x, .inr ⟨rfl, trivial⟩, k, hk, d, e', h1, h2, h3⟩

/-- The list then does what it did before and after that what the file says, if no node at the seam is bypassed. -/
theorem C163_runs (A : Arith K) (hA : Casts A) (compat : ℕ) (fs : String → Option File) (fuel : ℕ) (strict : Bool)
    (path : String) (l d : PList K) (h : readFile A compat fs (fuel + 1) strict path = .ok d)
    (hs : Spec.SeamFree compat l.processes d.processes) (v : List (Flt K)) (stride : ℕ) :
    processList A compat (readFileInto A compat fs fuel strict path l).1.processes v stride
      = (do let w ← processList A compat l.processes v stride; processList A compat d.processes w stride) := by
  have := C163_file A compat fs fuel strict path l
  rw [h] at this
  rw [this.2.processes]
  exact C37_append A hA compat stride _ _ hs v

/-- Reading into a new list is what the constructor does. -/
theorem C163_new (A : Arith K) (compat : ℕ) (fs : String → Option File) (fuel : ℕ) (strict : Bool) (path : String) :
    (readFile A compat fs (fuel + 1) strict path).map (fun d => d.processes)
      = match readFileInto A compat fs fuel strict path {} with
        | (r, none) => .ok r.processes
        | (_, some e) => .error e := by
  have := C163_file A compat fs fuel strict path {}
  generalize readFileInto A compat fs fuel strict path {} = q at this
  obtain ⟨q1, q2⟩ := q
  cases h : readFile A compat fs (fuel + 1) strict path with
  | error e =>
    rw [h] at this
    simp only at this
    subst this
    rfl
  | ok d =>
    rw [h] at this
    obtain ⟨h1, h2⟩ := this
    simp only at h1
    subst h1
    have := h2.processes
    simp only [List.nil_append] at this
    simp only [Except.map, this]

/-- Reading a file again is not reloading it: the doubling list then takes 1 to 4. -/
theorem C163_reload_false :
    (do let d ← readFile ratArith 0 doublerDoc 1 false "c"
        processList ratArith 0 d.processes [.fin 1, .fin 2, .fin 3] 3) = .ok [.fin 2, .fin 4, .fin 6] ∧
    (do let d ← readFile ratArith 0 doublerDoc 1 false "c"
        processList ratArith 0 (readFileInto ratArith 0 doublerDoc 0 false "c" d).1.processes [.fin 1, .fin 2, .fin 3] 3)
      = .ok [.fin 4, .fin 8, .fin 12] := by
  constructor <;> decide +kernel

/-! ### Examples -/

/-- A strict read that fails at its second element leaves the first node behind. -/
example : let q := readListInto ratArith 0 (fun _ => .ok none) true {} (.mk "ProcessList" [("id", "a")] none
      [.mk "Range" [("inBitDepth", "32f"), ("outBitDepth", "32f")] none [], .mk "Unknown" [] none []])
    q.2 = some .unknownProcessNode ∧ q.1.processes.length = 1 := by decide +kernel

end CLF
