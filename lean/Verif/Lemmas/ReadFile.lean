import Verif.Lemmas.Read
import Verif.Lemmas.Dict
import Verif.Lemmas.ReadRel
import Mathlib.Data.Rat.Floor

/-! # References and files -/

set_option linter.unusedSectionVars false

namespace CLF

variable {K : Type} [Field K] [LinearOrder K] [IsStrictOrderedRing K] [FloorRing K]

theorem readAttrs_attrs (b : Base K) (attrs : Dict String) : (readAttrs b attrs).attrs =
    attrs.foldl (fun d kv => Dict.set d kv.1 (attrOfText kv.2)) b.attrs := by
  unfold readAttrs
  induction attrs generalizing b with
  | nil => rfl
  | cons p attrs ih => rw [List.foldl_cons, List.foldl_cons, ih]; rfl

theorem readAttrs_get (b : Base K) (attrs : Dict String) (hl : (attrs.map Prod.fst).Nodup) (k : String) :
    (readAttrs b attrs).attrs.get? k =
      match attrs.get? k with
      | some v => some (attrOfText v)
      | none => b.attrs.get? k := by
  rw [readAttrs_attrs, Dict.get?_foldl_set _ _ hl]
  cases attrs.get? k <;> rfl

theorem readCommon_attrs (compat : ℕ) (strict : Bool) (b b' : Base K) (c : Xml)
    (h : readCommon compat strict b c = .ok (some b')) : b'.attrs = b.attrs := by
  unfold readCommon at h
  simp only at h
  by_cases h1 : elementType c.tag = "Description"
  · rw [if_pos h1] at h; cases h; rfl
  · rw [if_neg h1] at h
    by_cases h2 : elementType c.tag = "DynamicParameter"
    · rw [if_pos h2] at h
      by_cases h3 : hasFeature compat autodesk = true
      · rw [if_pos h3] at h
        cases h4 : c.attrs.get? "param" <;> (rw [h4] at h; cases h; rfl)
      · rw [if_neg h3] at h
        by_cases h4 : strict = true
        · rw [if_pos h4] at h; cases h
        · rw [if_neg h4] at h; cases h; rfl
    · rw [if_neg h2] at h; cases h

theorem readRefFold_attrs (compat : ℕ) (strict : Bool) (cs : List Xml) (b b' : Base K)
    (h : cs.foldlM (readRefStep compat strict) b = .ok b') : b'.attrs = b.attrs :=
  foldlM_keeps (fun s => s.attrs = b.attrs) (fun s a r hs hr => by
    unfold readRefStep at hr
    obtain ⟨o, h1, h2⟩ := py_bind_eq_ok.mp hr
    cases o with
    | none => cases h2; exact hs
    | some t => cases h2; rw [readCommon_attrs _ _ _ _ _ h1, hs]) cs b b' rfl h

theorem joinPath_joins (base path p : String) (h : Spec.Joins base path p) :
    joinPath (.str base) (.str path) = .ok p := by
  unfold joinPath
  simp only
  cases h with
  | absolute h => rw [h]; rfl
  | bare h => rw [if_neg h, if_pos (.inl rfl)]; simp
  | slash h1 h2 =>
    rw [if_neg h1, if_pos (.inr (by rw [h2]; simp))]
  | plain h1 h2 h3 =>
    rw [if_neg h1, if_neg]
    rintro (h | h)
    · rw [h] at h2; simp at h2
    · rw [h2] at h; simp at h; exact h3 h

theorem attrOfText_str (s : String) (h1 : s ≠ "True") (h2 : s ≠ "False") : attrOfText s = .str s := by
  unfold attrOfText; rw [if_neg h1, if_neg h2]

/-- The path a Reference element resolves to. -/
theorem refTo_path (c : Xml) (p : String) (h : Spec.RefTo c p) (b : Base K)
    (hb : b.attrs = (readAttrs (K := K) defaultBase c.attrs).attrs) :
    joinPath ((b.attrs.get? "basePath").getD (.str "")) ((b.attrs.get? "path").getD (.str "")) = .ok p := by
  obtain ⟨_, hnd, base, path, h1, h2, h3, h4, h5⟩ := h
  have hp : b.attrs.get? "path" = some (.str path) := by
    rw [hb, readAttrs_get _ _ hnd, Dict.get?_of_mem _ hnd _ _ h1]
    simp only [attrOfText_str _ h2 h3]
  have hbase : (b.attrs.get? "basePath").getD (.str "") = .str base := by
    rw [hb, readAttrs_get _ _ hnd]
    rcases h4 with ⟨h4, h6, h7⟩ | ⟨h4, rfl⟩
    · rw [Dict.get?_of_mem _ hnd _ _ h4]
      simp only [attrOfText_str _ h6 h7]; rfl
    · rw [(Dict.get?_eq_none _ _).mpr h4]; rfl
  rw [hp, hbase]
  exact joinPath_joins _ _ _ h5

theorem classOf_reference : classOf (K := K) "Reference" = some .reference := rfl

theorem readRef_eq (A : Arith K) (compat : ℕ) (load : String → Py (Option (List (Node K))))
    (strict : Bool) (c : Xml) (p : String) (h : Spec.RefTo c p) (n : Node K)
    (hn : readNode A compat load strict c = .ok n) :
    (∃ ns b, load p = .ok (some ns) ∧ n = .ref b false ns) ∨
    (∃ b, load p = .ok none ∧ n = .refMissing b false) := by
  have ht : elementType c.tag = "Reference" := ((named_iff _ _).mp h.1).symm
  rw [readNode_mk, ht, classOf_reference] at hn
  simp only at hn
  obtain ⟨b, h1, h2⟩ := py_bind_eq_ok.mp hn
  unfold resolveRef at h2
  rw [refTo_path c p h b (readRefFold_attrs _ _ _ _ _ h1), py_ok_bind] at h2
  obtain ⟨o, h3, h4⟩ := py_bind_eq_ok.mp h2
  cases o with
  | none => cases h4; exact .inr ⟨b, h3, rfl⟩
  | some ns => cases h4; exact .inl ⟨ns, b, h3, rfl⟩

/-! ### Members are read -/

theorem foldlM_mem {σ α : Type} {f : σ → α → Py σ} (l : List α) (s r : σ) (h : l.foldlM f s = .ok r)
    (a : α) (ha : a ∈ l) : ∃ s r, f s a = .ok r := by
  induction l generalizing s with
  | nil => cases ha
  | cons b l ih =>
    rw [List.foldlM_cons] at h
    obtain ⟨t, h1, h2⟩ := py_bind_eq_ok.mp h
    rcases List.mem_cons.mp ha with rfl | ha
    · exact ⟨s, t, h1⟩
    · exact ih t h2 ha

theorem member_read (A : Arith K) (compat : ℕ) (load : String → Py (Option (List (Node K))))
    (strict : Bool) (x : Xml) (l : PList K) (h : readList A compat load strict x = .ok l) (c : Xml)
    (hc : Spec.Member x c) (hn : elementType c.tag ∈ Spec.nodeNames) :
    ∃ n, readNode A compat load false c = .ok n := by
  have h' : readList A compat load false x = .ok l := by
    cases strict with
    | false => exact h
    | true => exact ((readList_strict _ _ _ _ _).mp h).1
  induction hc with
  | top hm =>
    obtain ⟨s, r, h1⟩ := foldlM_mem _ _ _ h' _ hm
    rcases (readListStep_plain _ _ _ _ _ _).mp h1 with ⟨_, n, h2, _⟩ | ⟨h2, _⟩
    · exact ⟨n, h2⟩
    · exact absurd hn h2
  | nested hg hname hm ih =>
    rename_i g c
    have ht : elementType g.tag = "Group" := ((named_iff _ _).mp hname).symm
    obtain ⟨n, h1⟩ := ih (by rw [ht]; decide)
    rw [readNode_mk, ht] at h1
    obtain ⟨⟨b, ns⟩, h2, _⟩ := py_bind_eq_ok.mp h1
    rw [readGroup_eq] at h2
    obtain ⟨s, r, h3⟩ := foldlM_mem _ _ _ h2 _ hm
    unfold readGroupStep at h3
    have hcommon : readCommon compat false s.1 c = .ok none := by
      unfold readCommon
      simp only
      rw [if_neg, if_neg]
      · intro e; rw [e] at hn; revert hn; decide
      · intro e; rw [e] at hn; revert hn; decide
    rw [hcommon, py_ok_bind] at h3
    cases hcl : classOf (K := K) (elementType c.tag) with
    | none =>
      have := (classOf_none (K := K) _).mp hcl
      exact absurd (.inl hn) this
    | some cls =>
      rcases classOf_isNode _ _ hcl with ⟨g1, _⟩ | ⟨_, g1⟩
      · rw [hcl] at h3
        simp only [g1, if_true] at h3
        obtain ⟨n, h4, _⟩ := py_bind_eq_ok.mp h3
        exact ⟨n, h4⟩
      · exact absurd g1 (nodeNames_infoNames _ hn)

/-- How a file resolves references. -/
def loader (A : Arith K) (compat : ℕ) (fs : String → Option File) (fuel : ℕ) :
    String → Py (Option (List (Node K))) := fun p =>
  match fs p with
  | none => .ok none
  | some _ => do
    let l ← readFile A compat fs fuel false p
    pure (some l.processes)

theorem readFile_succ (A : Arith K) (compat : ℕ) (fs : String → Option File) (fuel : ℕ) (strict : Bool)
    (path : String) : readFile A compat fs (fuel + 1) strict path =
      match fs path with
      | none => .error .ioError
      | some f => readContents compat (readList A compat (loader A compat fs fuel) strict) f := by
  rw [readFile]; rfl

theorem readFile_ok (A : Arith K) (compat : ℕ) (fs : String → Option File) (fuel : ℕ) (strict : Bool)
    (path : String) (l : PList K) (h : readFile A compat fs fuel strict path = .ok l) :
    ∃ k x, fuel = k + 1 ∧ (fs path = some (.doc x) ∨ fs path = some (.gz x)) ∧
      readList A compat (loader A compat fs k) strict x = .ok l := by
  cases fuel with
  | zero => rw [readFile] at h; cases h
  | succ k =>
    rw [readFile_succ] at h
    cases hf : fs path with
    | none => rw [hf] at h; cases h
    | some f =>
      rw [hf] at h
      cases f with
      | doc x => exact ⟨k, x, rfl, .inl rfl, h⟩
      | gz x =>
        refine ⟨k, x, rfl, .inr rfl, ?_⟩
        simp only [readContents] at h
        by_cases hd : hasFeature compat duiker = true
        · rw [if_pos hd] at h
          cases hr : readList A compat (loader A compat fs k) strict x with
          | error e => rw [hr] at h; cases h
          | ok l' => rw [hr] at h; exact h
        · rw [if_neg hd] at h; cases h
      | garbage => cases h
      | unreadable => cases h

/-! ### Computations with the same successes -/

/-- The same results, but perhaps different errors. -/
def SameOk {σ : Type} (x y : Py σ) : Prop := ∀ a, x = .ok a ↔ y = .ok a

theorem SameOk.rfl' {σ : Type} (x : Py σ) : SameOk x x := fun _ => Iff.rfl

theorem SameOk.bind {σ τ : Type} {x y : Py σ} {f g : σ → Py τ} (h : SameOk x y)
    (hf : ∀ a, SameOk (f a) (g a)) : SameOk (x >>= f) (y >>= g) := by
  intro r
  rw [py_bind_eq_ok, py_bind_eq_ok]
  exact exists_congr fun a => and_congr (h a) (hf a r)

theorem SameOk.foldlM {σ α : Type} {f g : σ → α → Py σ} (l : List α)
    (h : ∀ s, ∀ a ∈ l, SameOk (f s a) (g s a)) (s : σ) : SameOk (l.foldlM f s) (l.foldlM g s) := by
  induction l generalizing s with
  | nil => exact SameOk.rfl' _
  | cons a l ih =>
    rw [List.foldlM_cons, List.foldlM_cons]
    exact (h s a (List.mem_cons_self ..)).bind fun t =>
      ih (fun s b hb => h s b (List.mem_cons_of_mem _ hb)) t

theorem readNode_load (A : Arith K) (compat : ℕ) (load load' : String → Py (Option (List (Node K))))
    (hl : ∀ p, SameOk (load p) (load' p)) (x : Xml) : ∀ strict : Bool,
    SameOk (readNode A compat load strict x) (readNode A compat load' strict x) := by
  induction x using Xml.ind with
  | h t a s cs ih =>
    intro strict
    rw [readNode_mk, readNode_mk]
    simp only [Xml.tag, Xml.attrs, Xml.children]
    cases hc : classOf (K := K) (elementType t) with
    | none => exact SameOk.rfl' _
    | some cls =>
      cases cls with
      | leaf k b => exact SameOk.rfl' _
      | group =>
        simp only [readGroup_eq]
        refine SameOk.bind (SameOk.foldlM _ (fun s c hc => ?_) _) fun _ => SameOk.rfl' _
        unfold readGroupStep
        refine (SameOk.rfl' _).bind fun o => ?_
        cases o with
        | some b => exact SameOk.rfl' _
        | none =>
          simp only
          cases classOf (K := K) (elementType c.tag) with
          | none => exact SameOk.rfl' _
          | some cls =>
            simp only
            by_cases hn : cls.isNode = true
            · rw [if_pos hn, if_pos hn]
              exact (ih c hc false).bind fun _ => SameOk.rfl' _
            · rw [if_neg hn, if_neg hn]; exact SameOk.rfl' _
      | reference =>
        simp only []
        refine (SameOk.rfl' _).bind fun b => ?_
        unfold resolveRef
        refine (SameOk.rfl' _).bind fun p => (hl p).bind fun o => SameOk.rfl' _
      | processNode => exact SameOk.rfl' _
      | comment t => exact SameOk.rfl' _
      | info => exact SameOk.rfl' _

theorem readList_load (A : Arith K) (compat : ℕ) (load load' : String → Py (Option (List (Node K))))
    (hl : ∀ p, SameOk (load p) (load' p)) (strict : Bool) (x : Xml) :
    SameOk (readList A compat load strict x) (readList A compat load' strict x) := by
  unfold readList
  refine SameOk.foldlM _ (fun l c _ => ?_) _
  unfold readListStep
  simp only
  cases classOf (K := K) (elementType c.tag) with
  | none => exact SameOk.rfl' _
  | some cls =>
    simp only
    by_cases hn : cls.isNode = true
    · rw [if_pos hn, if_pos hn]
      exact (readNode_load A compat load load' hl c strict).bind fun _ => SameOk.rfl' _
    · rw [if_neg hn, if_neg hn]; exact SameOk.rfl' _

/-- The document a file holds, if any. -/
def File.body : File → Option Xml
  | .doc x => some x
  | .gz x => some x
  | _ => none

theorem readContents_ok {α : Type} (compat : ℕ) (hd : hasFeature compat duiker = true)
    (rd : Xml → Py α) (f : File) (a : α) :
    readContents compat rd f = .ok a ↔ ∃ x, f.body = some x ∧ rd x = .ok a := by
  cases f with
  | doc x => simp [readContents, File.body]
  | gz x =>
    simp only [readContents, File.body, Option.some.injEq, exists_eq_left']
    rw [if_pos hd]
    cases rd x <;> simp
  | garbage => simp [readContents, File.body]
  | unreadable => simp [readContents, File.body]

theorem readFile_body (A : Arith K) (compat : ℕ) (hd : hasFeature compat duiker = true)
    (fs fs' : String → Option File) (h : ∀ q, (fs q).map File.body = (fs' q).map File.body) (fuel : ℕ) :
    ∀ (strict : Bool) (p : String),
      SameOk (readFile A compat fs fuel strict p) (readFile A compat fs' fuel strict p) := by
  induction fuel with
  | zero => intro strict p; rw [readFile, readFile]; exact SameOk.rfl' _
  | succ k ih =>
    intro strict p
    rw [readFile_succ, readFile_succ]
    have hload : ∀ q, SameOk (loader A compat fs k q) (loader A compat fs' k q) := by
      intro q
      unfold loader
      have hq := h q
      cases h1 : fs q with
      | none =>
        rw [h1] at hq
        cases h2 : fs' q with
        | none => exact SameOk.rfl' _
        | some f' => rw [h2] at hq; cases hq
      | some f =>
        rw [h1] at hq
        cases h2 : fs' q with
        | none => rw [h2] at hq; cases hq
        | some f' => exact (ih false q).bind fun _ => SameOk.rfl' _
    have hp := h p
    cases h1 : fs p with
    | none =>
      rw [h1] at hp
      cases h2 : fs' p with
      | none => exact SameOk.rfl' _
      | some f' => rw [h2] at hp; cases hp
    | some f =>
      rw [h1] at hp
      cases h2 : fs' p with
      | none => rw [h2] at hp; cases hp
      | some f' =>
        rw [h2] at hp
        simp only [Option.map_some, Option.some.injEq] at hp
        intro a
        simp only
        rw [readContents_ok _ hd, readContents_ok _ hd, hp]
        exact exists_congr fun x => and_congr_right fun _ => readList_load A compat _ _ hload strict x a

/-! ### Attributes of the nodes read -/

theorem readLeafChild_attrs (A : Arith K) (k k' : Kind K) (b b' : Base K) (c : Xml)
    (h : readLeafChild A k b c = .ok (k', b')) : b'.attrs = b.attrs := by
  have hA : ∀ r, ∀ a, readArrayChild A b r c = .ok a → a.attrs = b.attrs := by
    intro r a h
    unfold readArrayChild at h
    obtain ⟨x, _, h2⟩ := py_bind_eq_ok.mp h
    cases h2; rfl
  have hI : ∀ a, readIndexMapChild b c = .ok a → a.attrs = b.attrs := by
    intro a h
    unfold readIndexMapChild at h
    obtain ⟨x, _, h2⟩ := py_bind_eq_ok.mp h
    cases h2; rfl
  unfold readLeafChild at h
  cases k with
  | range =>
    simp only at h
    by_cases hc : isRangeValue (elementType c.tag) = true
    · rw [if_pos hc] at h
      obtain ⟨a, _, h2⟩ := bind_pure_pair h
      cases h2; rfl
    · rw [if_neg hc] at h; cases h; rfl
  | matrix =>
    simp only at h
    by_cases hc : elementType c.tag = "Array"
    · rw [if_pos hc] at h
      obtain ⟨a, h1, h2⟩ := bind_pure_pair h
      cases h2; exact hA _ _ h1
    · rw [if_neg hc] at h; cases h; rfl
  | lut1d =>
    simp only at h
    by_cases hc : elementType c.tag = "Array"
    · rw [if_pos hc] at h
      obtain ⟨a, h1, h2⟩ := bind_pure_pair h
      cases h2; exact hA _ _ h1
    · rw [if_neg hc] at h
      by_cases hd : elementType c.tag = "IndexMap"
      · rw [if_pos hd] at h
        obtain ⟨a, h1, h2⟩ := bind_pure_pair h
        cases h2; exact hI _ h1
      · rw [if_neg hd] at h; cases h; rfl
  | lut3d =>
    simp only at h
    by_cases hc : elementType c.tag = "Array"
    · rw [if_pos hc] at h
      obtain ⟨a, h1, h2⟩ := bind_pure_pair h
      cases h2; exact hA _ _ h1
    · rw [if_neg hc] at h
      by_cases hd : elementType c.tag = "IndexMap"
      · rw [if_pos hd] at h
        obtain ⟨a, h1, h2⟩ := bind_pure_pair h
        cases h2; exact hI _ h1
      · rw [if_neg hd] at h; cases h; rfl
  | cdl cc v =>
    simp only at h
    obtain ⟨a, _, h2⟩ := bind_pure_pair h
    cases h2; rfl
  | exposureContrast e ct p =>
    simp only at h
    by_cases hc : elementType c.tag = "ECParams"
    · rw [if_pos hc] at h
      obtain ⟨_, _, h⟩ := py_bind_eq_ok.mp h
      obtain ⟨_, _, h⟩ := py_bind_eq_ok.mp h
      obtain ⟨a, _, h2⟩ := bind_pure_pair h
      cases h2; rfl
    · rw [if_neg hc] at h; cases h; rfl
  | gamma ps =>
    simp only at h
    by_cases hc : elementType c.tag = "GammaParams"
    · rw [if_pos hc] at h
      obtain ⟨_, _, h⟩ := py_bind_eq_ok.mp h
      obtain ⟨a, _, h2⟩ := bind_pure_pair h
      cases h2; rfl
    · rw [if_neg hc] at h; cases h; rfl
  | log ps =>
    simp only at h
    by_cases hc : elementType c.tag = "LogParams"
    · rw [if_pos hc] at h
      obtain ⟨_, _, h⟩ := py_bind_eq_ok.mp h
      obtain ⟨_, _, h⟩ := py_bind_eq_ok.mp h
      obtain ⟨_, _, h⟩ := py_bind_eq_ok.mp h
      obtain ⟨_, _, h⟩ := py_bind_eq_ok.mp h
      obtain ⟨a, _, h2⟩ := bind_pure_pair h
      cases h2; rfl
    · rw [if_neg hc] at h; cases h; rfl
  | plain => simp only at h; cases h; rfl

/-- The attributes of a new node of a class. -/
def initAttrs (t : String) : Dict AVal :=
  match classOf (K := ℚ) t with
  | some (.leaf _ b) => b.attrs
  | _ => (defaultBase (K := ℚ)).attrs

theorem initAttrs_leaf (t : String) (k : Kind K) (b : Base K) (h : classOf t = some (.leaf k b)) :
    initAttrs t = b.attrs := by
  unfold classOf at h
  iterate 12
    rcases ite_eq_some h with ⟨rfl, e⟩ | ⟨_, h⟩
    · cases e; try rfl
  iterate 5
    rcases ite_eq_some h with ⟨rfl, e⟩ | ⟨_, h⟩
    · cases e
  cases h

theorem readNode_attrs (A : Arith K) (compat : ℕ) (load : String → Py (Option (List (Node K))))
    (strict : Bool) (x : Xml) (n : Node K) (h : readNode A compat load strict x = .ok n) :
    n.base.attrs = x.attrs.foldl (fun d kv => Dict.set d kv.1 (attrOfText kv.2))
      (initAttrs (elementType x.tag)) := by
  rw [readNode_mk] at h
  cases hc : classOf (K := K) (elementType x.tag) with
  | none => rw [hc] at h; cases h
  | some cls =>
    rw [hc] at h
    cases cls with
    | leaf k b =>
      simp only [readLeaf] at h
      obtain ⟨⟨k', b'⟩, h1, h2⟩ := py_bind_eq_ok.mp h
      cases h2
      rw [initAttrs_leaf _ _ _ hc, ← readAttrs_attrs]
      exact foldlM_keeps (fun s => s.2.attrs = (readAttrs b x.attrs).attrs)
        (fun s a r hs hr => by
          unfold readLeafStep at hr
          obtain ⟨o, g1, g2⟩ := py_bind_eq_ok.mp hr
          cases o with
          | some b3 => cases g2; exact (readCommon_attrs _ _ _ _ _ g1).trans hs
          | none => exact (readLeafChild_attrs A s.1 r.1 s.2 r.2 a g2).trans hs)
        _ _ _ rfl h1
    | group =>
      simp only [readGroup_eq] at h
      obtain ⟨⟨b', ns⟩, h1, h2⟩ := py_bind_eq_ok.mp h
      cases h2
      have e : initAttrs (elementType x.tag) = (defaultBase (K := K)).attrs := by
        rw [classOf_group_name _ hc]; rfl
      rw [e, ← readAttrs_attrs]
      exact foldlM_keeps (fun s => s.1.attrs = (readAttrs (defaultBase (K := K)) x.attrs).attrs)
        (fun s a r hs hr => by
          unfold readGroupStep at hr
          obtain ⟨o, g1, g2⟩ := py_bind_eq_ok.mp hr
          cases o with
          | some b3 => cases g2; exact (readCommon_attrs _ _ _ _ _ g1).trans hs
          | none =>
            simp only at g2
            cases hcl : classOf (K := K) (elementType a.tag) with
            | none => rw [hcl] at g2; cases g2; exact hs
            | some cls =>
              rw [hcl] at g2
              simp only at g2
              by_cases hn : cls.isNode = true
              · rw [if_pos hn] at g2
                obtain ⟨n, _, g3⟩ := py_bind_eq_ok.mp g2
                cases g3; exact hs
              · rw [if_neg hn] at g2; cases g2; exact hs)
        _ _ _ rfl h1
    | reference =>
      simp only [] at h
      obtain ⟨b', h1, h2⟩ := py_bind_eq_ok.mp h
      have e : initAttrs (elementType x.tag) = (defaultBase (K := K)).attrs := by
        rw [classOf_reference_name _ hc]; rfl
      rw [e, ← readAttrs_attrs, ← readRefFold_attrs _ _ _ _ _ h1]
      unfold resolveRef at h2
      obtain ⟨p, h3, h4⟩ := py_bind_eq_ok.mp h2
      obtain ⟨o, h5, h6⟩ := py_bind_eq_ok.mp h4
      cases o <;> cases h6 <;> rfl
    | processNode => cases h
    | comment t => cases h
    | info => cases h

theorem initAttrs_bypass (t : String) : (initAttrs t).get? "bypass" = none := by
  unfold initAttrs
  cases h : classOf (K := ℚ) t with
  | none => decide
  | some cls =>
    cases cls with
    | leaf k b =>
      unfold classOf at h
      simp only
      iterate 12
        rcases ite_eq_some h with ⟨rfl, e⟩ | ⟨_, h⟩
        · cases e; try rfl
      iterate 5
        rcases ite_eq_some h with ⟨rfl, e⟩ | ⟨_, h⟩
        · cases e
      cases h
    | _ => rfl

/-- The `bypass` attribute of a node read. -/
theorem readNode_bypass (A : Arith K) (compat : ℕ) (load : String → Py (Option (List (Node K))))
    (strict : Bool) (x : Xml) (n : Node K) (h : readNode A compat load strict x = .ok n)
    (hx : (x.attrs.map Prod.fst).Nodup) :
    n.attr "bypass" = (x.attrs.get? "bypass").map attrOfText := by
  unfold Node.attr
  rw [readNode_attrs _ _ _ _ _ _ h, Dict.get?_foldl_set _ _ hx, initAttrs_bypass]
  cases x.attrs.get? "bypass" <;> rfl

end CLF
