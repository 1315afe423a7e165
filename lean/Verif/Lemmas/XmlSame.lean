import Verif.Lemmas.XmlRead
import Verif.Lemmas.RoundTrip
import Verif.Lemmas.ReadFile
import Verif.Spec.RoundTrip
import Verif.Lemmas.Nodes

/-! # The order of attributes, and text in elements with children -/

set_option linter.unusedSectionVars false

namespace CLF

variable {K : Type} [Field K] [LinearOrder K] [IsStrictOrderedRing K] [FloorRing K]

/-- Names of elements whose text is read. -/
def textNames : List String :=
  ["Description", "Comment", "InputDescriptor", "OutputDescriptor", "AppRelease", "Copyright", "Release", "Array",
    "IndexMap", "Slope", "Offset", "Power", "Saturation", "minInValue", "maxInValue", "minOutValue", "maxOutValue"]

/-- Documents that are read alike. -/
inductive Near : Xml → Xml → Prop
  | mk {tag : String} {as as' : Dict String} {text text' : Option String} {cs cs' : List Xml} :
      (as.map Prod.fst).Nodup → (as'.map Prod.fst).Nodup → (∀ k, as.get? k = as'.get? k) →
      (text = text' ∨ elementType tag ∉ textNames) → List.Forall₂ Near cs cs' →
      Near (.mk tag as text cs) (.mk tag as' text' cs')

theorem near_parts {x y : Xml} (h : Near x y) : x.tag = y.tag ∧ (∀ k, x.attrs.get? k = y.attrs.get? k) ∧
    (x.text = y.text ∨ elementType x.tag ∉ textNames) ∧ List.Forall₂ Near x.children y.children ∧
    (x.attrs.map Prod.fst).Nodup ∧ (y.attrs.map Prod.fst).Nodup := by
  cases h with
  | mk h1 h2 h3 h4 h5 => exact ⟨rfl, h3, h4, h5, h1, h2⟩

theorem near_text {x y : Xml} (h : Near x y) (ht : elementType y.tag ∈ textNames) : x.text = y.text := by
  obtain ⟨h1, _, h3, _⟩ := near_parts h
  rcases h3 with h3 | h3
  · exact h3
  · rw [h1] at h3; exact absurd ht h3

theorem readCommon_near (compat : ℕ) (strict : Bool) (b : Base K) {c c' : Xml} (h : Near c c') :
    readCommon compat strict b c = readCommon compat strict b c' := by
  obtain ⟨h1, h2, _, _⟩ := near_parts h
  unfold readCommon
  rw [h1, h2]
  by_cases ht : elementType c'.tag = "Description"
  · rw [near_text h (by rw [ht]; decide)]
  · simp only [if_neg ht]

theorem readArrayChild_near (A : Arith K) (b : Base K) (r : Bool) {c c' : Xml} (h : Near c c')
    (ht : elementType c'.tag = "Array") : readArrayChild A b r c = readArrayChild A b r c' := by
  obtain ⟨h1, h2, _, _⟩ := near_parts h
  unfold readArrayChild Arr.read SArr.read
  rw [h2, h2, near_text h (by rw [ht]; decide)]

theorem readIndexMapChild_near (b : Base K) {c c' : Xml} (h : Near c c') (ht : elementType c'.tag = "IndexMap") :
    readIndexMapChild b c = readIndexMapChild b c' := by
  obtain ⟨h1, h2, _, _⟩ := near_parts h
  unfold readIndexMapChild IndexMap.read
  rw [h2, near_text h (by rw [ht]; decide)]

theorem readSop_near (v : CdlValues K) {c c' : Xml} (h : Near c c') : readSop v c = readSop v c' := by
  obtain ⟨h1, _⟩ := near_parts h
  unfold readSop
  rw [h1]
  simp only
  split_ifs with a1 a2 a3
  · rw [near_text h (by rw [a1]; decide)]
  · rw [near_text h (by rw [a2]; decide)]
  · rw [near_text h (by rw [a3]; decide)]
  · rfl

theorem readSat_near (v : CdlValues K) {c c' : Xml} (h : Near c c') : readSat v c = readSat v c' := by
  obtain ⟨h1, _⟩ := near_parts h
  unfold readSat
  rw [h1]
  split_ifs with a1
  · rw [near_text h (by rw [a1]; decide)]
  · rfl

theorem readCdlChild_near (v : CdlValues K) {c c' : Xml} (h : Near c c') : readCdlChild v c = readCdlChild v c' := by
  obtain ⟨h1, _, _, h4, _⟩ := near_parts h
  unfold readCdlChild
  rw [h1]
  have e1 : c.children.foldlM readSop v = c'.children.foldlM readSop v := by
    rw [← relPy_eq]
    refine foldlM_rel (fun s t a b hab hst => ?_) h4 v v rfl
    subst hst
    rw [relPy_eq]; exact readSop_near s hab
  have e2 : c.children.foldlM readSat v = c'.children.foldlM readSat v := by
    rw [← relPy_eq]
    refine foldlM_rel (fun s t a b hab hst => ?_) h4 v v rfl
    subst hst
    rw [relPy_eq]; exact readSat_near s hab
  rw [e1, e2]

theorem floatAttr_near {c c' : Xml} (h : Near c c') (k : String) (d : Flt K) : floatAttr c k d = floatAttr c' k d := by
  unfold floatAttr; rw [(near_parts h).2.1]

theorem readLeafChild_near (A : Arith K) (k : Kind K) (b : Base K) {c c' : Xml} (h : Near c c') :
    readLeafChild A k b c = readLeafChild A k b c' := by
  obtain ⟨h1, h2, _, h4⟩ := near_parts h
  unfold readLeafChild
  cases k with
  | range =>
    simp only [h1]
    split_ifs with a1
    · have : elementType c'.tag ∈ textNames := by
        simp only [isRangeValue, Bool.or_eq_true, decide_eq_true_eq] at a1
        rcases a1 with ((a1 | a1) | a1) | a1 <;> rw [a1] <;> decide
      rw [near_text h this]
    · rfl
  | matrix =>
    simp only [h1]
    split_ifs with a1
    · rw [readArrayChild_near A b _ h a1]
    · rfl
  | lut1d =>
    simp only [h1]
    split_ifs with a1 a2
    · rw [readArrayChild_near A b _ h a1]
    · rw [readIndexMapChild_near b h a2]
    · rfl
  | lut3d =>
    simp only [h1]
    split_ifs with a1 a2
    · rw [readArrayChild_near A b _ h a1]
    · rw [readIndexMapChild_near b h a2]
    · rfl
  | cdl cc v => simp only [readCdlChild_near v h]
  | exposureContrast => simp only [h1, floatAttr_near h]
  | gamma => simp only [h1, floatAttr_near h, h2]
  | log => simp only [h1, floatAttr_near h, h2]
  | plain => rfl

theorem readInfo_near {c c' : Xml} (h : Near c c') : readInfo c = readInfo c' := by
  obtain ⟨_, _, _, h4, _⟩ := near_parts h
  unfold readInfo
  generalize c.children = l at h4 ⊢
  generalize c'.children = l' at h4 ⊢
  induction h4 with
  | nil => rfl
  | cons g _ ih =>
    rw [List.filterMap_cons, List.filterMap_cons, ih, (near_parts g).1]
    simp only
    split_ifs with a1
    · rw [near_text g (by rcases a1 with a1 | a1 | a1 <;> rw [a1] <;> decide)]
    · rfl

theorem classOf_comment_text (ty t : String) (h : classOf (K := K) ty = some (.comment t)) : ty ∈ textNames := by
  unfold classOf at h
  iterate 12
    rcases ite_eq_some h with ⟨_, e⟩ | ⟨_, h⟩
    · cases e
  iterate 5
    rcases ite_eq_some h with ⟨rfl, e⟩ | ⟨_, h⟩
    · first | decide | cases e
  cases h

theorem readElem_near (cls : Cls K) {c c' : Xml} (h : Near c c') (hc : classOf (elementType c'.tag) = some cls) :
    readElem cls c = readElem cls c' := by
  unfold readElem
  cases cls with
  | comment t =>
    simp only [near_text h (classOf_comment_text _ t hc)]
  | _ => simp only [readInfo_near h]

/-- The same up to the order of attributes. -/
def BaseEqv (b b' : Base K) : Prop :=
  (∀ k, b.attrs.get? k = b'.attrs.get? k) ∧ b.values = b'.values ∧ b.dyn = b'.dyn ∧ b.elements = b'.elements

/-- See `BaseEqv`. -/
inductive NodeEqv : Node K → Node K → Prop
  | leaf {k : Kind K} {b b' : Base K} : BaseEqv b b' → NodeEqv (.leaf k b) (.leaf k b')
  | group {b b' : Base K} {cs cs' : List (Node K)} : BaseEqv b b' → List.Forall₂ NodeEqv cs cs' →
      NodeEqv (.group b cs) (.group b' cs')
  | ref {b b' : Base K} {w : Bool} {ns : List (Node K)} : BaseEqv b b' → NodeEqv (.ref b w ns) (.ref b' w ns)
  | refMissing {b b' : Base K} {w : Bool} : BaseEqv b b' → NodeEqv (.refMissing b w) (.refMissing b' w)

theorem readCommon_eqv (m : ℕ) (strict : Bool) (b b' : Base K) (c : Xml) (h : BaseEqv b b') :
    RelPy (Option.Rel BaseEqv) (readCommon m strict b c) (readCommon m strict b' c) := by
  obtain ⟨h1, h2, h3, h4⟩ := h
  unfold readCommon
  simp only
  split_ifs
  · exact .some ⟨h1, h2, h3, by simp only [Base.addElement, h4]⟩
  · cases c.attrs.get? "param" with
    | none => exact .some ⟨h1, h2, h3, h4⟩
    | some p => exact .some ⟨h1, h2, by simp only [h3], h4⟩
  · rfl
  · exact .some ⟨h1, h2, h3, h4⟩
  · exact .none

theorem readArrayChild_eqv (A : Arith K) (b b' : Base K) (r : Bool) (c : Xml) (h : BaseEqv b b') :
    RelPy BaseEqv (readArrayChild A b r c) (readArrayChild A b' r c) := by
  obtain ⟨h1, h2, h3, h4⟩ := h
  unfold readArrayChild
  refine (RelPy.refl (R := (· = ·)) (fun _ => rfl) _).bind fun x y hxy => ?_
  subst hxy
  exact ⟨h1, h2, h3, by simp only [Base.addElement, h4, h1]⟩

theorem readIndexMapChild_eqv (b b' : Base K) (c : Xml) (h : BaseEqv b b') :
    RelPy BaseEqv (readIndexMapChild b c) (readIndexMapChild b' c) := by
  obtain ⟨h1, h2, h3, h4⟩ := h
  unfold readIndexMapChild
  refine (RelPy.refl (R := (· = ·)) (fun _ => rfl) _).bind fun x y hxy => ?_
  subst hxy
  exact ⟨h1, h2, h3, by simp only [Base.addElement, h4]⟩

theorem readLeafChild_eqv (A : Arith K) (k : Kind K) (b b' : Base K) (c : Xml) (h : BaseEqv b b') :
    RelPy (fun s s' => s.1 = s'.1 ∧ BaseEqv s.2 s'.2) (readLeafChild A k b c) (readLeafChild A k b' c) := by
  have hA : ∀ r, RelPy (fun s s' => s.1 = s'.1 ∧ BaseEqv s.2 s'.2)
      (do pure (k, ← readArrayChild A b r c)) (do pure (k, ← readArrayChild A b' r c)) := fun r =>
    (readArrayChild_eqv A b b' r c h).bind fun x y hxy => ⟨rfl, hxy⟩
  have hI : RelPy (fun s s' => s.1 = s'.1 ∧ BaseEqv s.2 s'.2)
      (do pure (k, ← readIndexMapChild b c)) (do pure (k, ← readIndexMapChild b' c)) :=
    (readIndexMapChild_eqv b b' c h).bind fun x y hxy => ⟨rfl, hxy⟩
  have hN : RelPy (fun s s' : Kind K × Base K => s.1 = s'.1 ∧ BaseEqv s.2 s'.2)
      (.ok (k, b)) (.ok (k, b')) := ⟨rfl, h⟩
  have hR : ∀ {α : Type} (x : Py α) (f g : α → Py (Kind K × Base K)),
      (∀ a, RelPy (fun s s' => s.1 = s'.1 ∧ BaseEqv s.2 s'.2) (f a) (g a)) →
      RelPy (fun s s' => s.1 = s'.1 ∧ BaseEqv s.2 s'.2) (x >>= f) (x >>= g) := fun x f g hfg =>
    (RelPy.refl (R := (· = ·)) (fun _ => rfl) x).bind fun a b hab => by subst hab; exact hfg a
  have hflag : b.flag "rawHalfs" = b'.flag "rawHalfs" := by
    unfold Base.flag; rw [h.1]
  unfold readLeafChild
  cases k with
  | range =>
    simp only
    split_ifs
    · refine hR _ _ _ fun a => ⟨rfl, h.1, ?_, h.2.2⟩
      simp only [h.2.1]
    · exact hN
  | matrix =>
    simp only
    split_ifs
    · exact hA _
    · exact hN
  | lut1d =>
    simp only
    rw [hflag]
    split_ifs
    · exact hA _
    · exact hI
    · exact hN
  | lut3d =>
    simp only
    split_ifs
    · exact hA _
    · exact hI
    · exact hN
  | cdl cc v => exact hR _ _ _ fun a => ⟨rfl, h⟩
  | exposureContrast e ct p =>
    simp only
    split_ifs
    · exact hR _ _ _ fun a => hR _ _ _ fun a => hR _ _ _ fun a => ⟨rfl, h⟩
    · exact hN
  | gamma ps =>
    simp only
    split_ifs
    · exact hR _ _ _ fun a => hR _ _ _ fun a => ⟨rfl, h⟩
    · exact hN
  | log ps =>
    simp only
    split_ifs
    · exact hR _ _ _ fun a => hR _ _ _ fun a => hR _ _ _ fun a => hR _ _ _ fun a => hR _ _ _ fun a => ⟨rfl, h⟩
    · exact hN
  | plain => exact hN

theorem readAttrs_eqv (b : Base K) (as as' : Dict String) (h : (as.map Prod.fst).Nodup) (h' : (as'.map Prod.fst).Nodup)
    (hg : ∀ k, as.get? k = as'.get? k) : BaseEqv (readAttrs b as) (readAttrs b as') := by
  refine ⟨fun k => ?_, ?_⟩
  · rw [readAttrs_get b as h, readAttrs_get b as' h', hg]
  · rw [readAttrs_eq, readAttrs_eq]; exact ⟨rfl, rfl, rfl⟩

theorem readNode_near (A : Arith K) (m : ℕ) (load : String → Py (Option (List (Node K)))) (x : Xml) :
    ∀ (y : Xml) (strict : Bool), Near x y → RelPy NodeEqv (readNode A m load strict x) (readNode A m load strict y) := by
  induction x using Xml.ind with
  | h t a s cs ih =>
    intro y strict hxy
    obtain ⟨h1, h2, -, h4, h5, h6⟩ := near_parts hxy
    have hat : ∀ b : Base K, BaseEqv (readAttrs b (Xml.mk t a s cs).attrs) (readAttrs b y.attrs) :=
      fun b => readAttrs_eqv b _ _ h5 h6 h2
    have h4' := forall₂_mem h4
    rw [readNode_mk, readNode_mk, h1]
    cases hc : classOf (K := K) (elementType y.tag) with
    | none => rfl
    | some cls =>
      cases cls with
      | leaf k b =>
        simp only [readLeaf]
        refine RelPy.bind (R := fun s s' => s.1 = s'.1 ∧ BaseEqv s.2 s'.2)
          (foldlM_rel (fun s s' c c' hcc hs => ?_) h4 _ _ ⟨rfl, hat b⟩) ?_
        · obtain ⟨g1, g2⟩ := hs
          unfold readLeafStep
          rw [readCommon_near _ _ _ hcc, readLeafChild_near _ _ _ hcc]
          refine (readCommon_eqv m strict _ _ c' g2).bind fun o o' ho => ?_
          cases ho with
          | none => rw [g1]; exact readLeafChild_eqv A _ _ _ c' g2
          | some hb => exact ⟨g1, hb⟩
        · rintro ⟨k1, b1⟩ ⟨k2, b2⟩ ⟨g1, g2⟩
          simp only at g1 g2
          subst g1
          exact NodeEqv.leaf g2
      | group =>
        simp only [readGroup_eq]
        refine RelPy.bind (R := fun s s' => BaseEqv s.1 s'.1 ∧ List.Forall₂ NodeEqv s.2 s'.2)
          (foldlM_rel (fun s s' c c' hcc hs => ?_) h4' _ _ ⟨hat _, .nil⟩) ?_
        · obtain ⟨hmem, hcc⟩ := hcc
          obtain ⟨g1, g2⟩ := hs
          unfold readGroupStep
          rw [readCommon_near _ _ _ hcc, (near_parts hcc).1]
          refine (readCommon_eqv m strict _ _ c' g1).bind fun o o' ho => ?_
          cases ho with
          | none =>
            simp only
            cases hk : classOf (K := K) (elementType c'.tag) with
            | none => exact ⟨g1, g2⟩
            | some cls =>
              simp only
              split_ifs
              · refine (ih c hmem c' false hcc).bind fun n n' hnn => ⟨g1, ?_⟩
                exact List.rel_append g2 (.cons hnn .nil)
              · rw [readElem_near cls hcc hk]
                exact ⟨⟨g1.1, g1.2.1, g1.2.2.1, by simp only [Base.addElement, g1.2.2.2]⟩, g2⟩
          | some hb => exact ⟨hb, g2⟩
        · rintro ⟨b1, n1⟩ ⟨b2, n2⟩ ⟨g1, g2⟩
          exact NodeEqv.group g1 g2
      | reference =>
        simp only []
        refine RelPy.bind (R := BaseEqv) (foldlM_rel (fun s s' c c' hcc hs => ?_) h4 _ _ (hat _)) ?_
        · unfold readRefStep
          rw [readCommon_near _ _ _ hcc]
          refine (readCommon_eqv m strict _ _ c' hs).bind fun o o' ho => ?_
          cases ho with
          | none => exact hs
          | some hb => exact hb
        · intro b b' h
          unfold resolveRef
          rw [h.1, h.1]
          refine (RelPy.refl (R := (· = ·)) (fun _ => rfl) _).bind fun p p' hp => ?_
          subst hp
          refine (RelPy.refl (R := (· = ·)) (fun _ => rfl) _).bind fun o o' ho => ?_
          subst ho
          cases o with
          | none => exact NodeEqv.refMissing h
          | some ns => exact NodeEqv.ref h
      | processNode => rfl
      | comment t => rfl
      | info => rfl

/-- See `BaseEqv`. -/
def ListEqv (l l' : PList K) : Prop :=
  (∀ k, l.attrs.get? k = l'.attrs.get? k) ∧ l.values = l'.values ∧ l.elements = l'.elements ∧
    List.Forall₂ NodeEqv l.processes l'.processes

theorem readList_near (A : Arith K) (m : ℕ) (load : String → Py (Option (List (Node K)))) (strict : Bool) (x y : Xml)
    (h : Near x y) : RelPy ListEqv (readList A m load strict x) (readList A m load strict y) := by
  obtain ⟨h1, h2, -, h4, h5, h6⟩ := near_parts h
  unfold readList
  refine foldlM_rel (fun s s' c c' hcc hs => ?_) h4 _ _ ⟨fun k => ?_, rfl, rfl, .nil⟩
  · obtain ⟨g1, g2, g3, g4⟩ := hs
    unfold readListStep
    rw [(near_parts hcc).1]
    simp only
    cases hk : classOf (K := K) (elementType c'.tag) with
    | none =>
      simp only
      split_ifs
      · rfl
      · exact ⟨g1, g2, g3, g4⟩
    | some cls =>
      simp only
      split_ifs
      · refine (readNode_near A m load c c' strict hcc).bind fun n n' hnn => ?_
        have hl := List.rel_append g4 (List.Forall₂.cons hnn .nil)
        cases vendorOf (elementType c'.tag) with
        | none => exact ⟨g1, g2, g3, hl⟩
        | some f =>
          simp only
          split_ifs
          · rfl
          · exact ⟨g1, g2, g3, hl⟩
      · rw [readElem_near cls hcc hk]
        exact ⟨g1, g2, by simp only [g3], g4⟩
  · have e1 := Dict.get?_foldl_set x.attrs AVal.str h5 [] k
    have e2 := Dict.get?_foldl_set y.attrs AVal.str h6 [] k
    rw [h2] at e1
    exact e1.trans e2.symm

theorem sameBase_eqv (A : Arith K) (b b' b'' : Base K) (h : Spec.SameBase A b b') (h' : BaseEqv b' b'') :
    Spec.SameBase A b b'' := by
  obtain ⟨h1, h2, h3, h4⟩ := h
  obtain ⟨g1, g2, g3, g4⟩ := h'
  exact ⟨fun k => g1 k ▸ h1 k, g2 ▸ h2, g3 ▸ h3, g4 ▸ h4⟩

theorem forall₂_join {α β γ : Type} {R : α → β → Prop} {S : β → γ → Prop} {T : α → γ → Prop} {l : List α} {m : List β}
    {n : List γ} (h : List.Forall₂ R l m) (h' : List.Forall₂ S m n) (ht : ∀ a ∈ l, ∀ b c, R a b → S b c → T a c) :
    List.Forall₂ T l n := by
  induction h generalizing n with
  | nil => cases h'; exact .nil
  | cons h1 h2 ih =>
    cases h' with
    | cons g1 g2 =>
      exact .cons (ht _ (List.mem_cons_self ..) _ _ h1 g1) (ih g2 fun a ha => ht a (List.mem_cons_of_mem _ ha))

theorem sameNode_eqv (A : Arith K) (n : Node K) :
    ∀ n' n'', Spec.SameNode A n n' → NodeEqv n' n'' → Spec.SameNode A n n'' := by
  induction n using Node.ind with
  | hleaf k b =>
    intro n' n'' h h'
    cases h with
    | leaf h1 h2 => cases h' with | leaf h3 => exact .leaf h1 (sameBase_eqv A _ _ _ h2 h3)
  | href b w ns ih =>
    intro n' n'' h h'
    cases h with
    | ref h1 => cases h' with | ref h3 => exact .ref (sameBase_eqv A _ _ _ h1 h3)
  | hmiss b w =>
    intro n' n'' h h'
    cases h with
    | refMissing h1 => cases h' with | refMissing h3 => exact .refMissing (sameBase_eqv A _ _ _ h1 h3)
  | hgroup b cs ih =>
    intro n' n'' h h'
    cases h with
    | group h1 h2 =>
      cases h' with
      | group h3 h4 =>
        exact .group (sameBase_eqv A _ _ _ h1 h3) (forall₂_join h2 h4 fun a ha b c hab hbc => ih a ha b c hab hbc)

theorem sameList_eqv (A : Arith K) (l l' l'' : PList K) (h : Spec.SameList A l l') (h' : ListEqv l' l'') :
    Spec.SameList A l l'' := by
  obtain ⟨h1, h2, h3, h4⟩ := h
  obtain ⟨g1, g2, g3, g4⟩ := h'
  exact ⟨fun k => g1 k ▸ h1 k, g2 ▸ h2, g3 ▸ h3, forall₂_join h4 g4 fun a _ b c => sameNode_eqv A a b c⟩

end CLF
