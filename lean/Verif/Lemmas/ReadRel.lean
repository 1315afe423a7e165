import Verif.Lemmas.Read
import Mathlib.Data.List.Forall2

/-! # Documents and settings that read alike -/

set_option linter.unusedSectionVars false

namespace CLF

variable {K : Type} [Field K] [LinearOrder K] [IsStrictOrderedRing K] [FloorRing K]

theorem Xml.ind {P : Xml → Prop} (h : ∀ t a x cs, (∀ c ∈ cs, P c) → P (.mk t a x cs)) (x : Xml) :
    P x := by
  refine Xml.rec (motive_1 := P) (motive_2 := fun cs => ∀ c ∈ cs, P c) h ?_ ?_ x
  · intro c hc; cases hc
  · intro c cs hc hcs d hd
    rcases List.mem_cons.mp hd with rfl | hd
    exacts [hc, hcs d hd]

/-- Results that fail alike or are related. -/
def RelPy {σ τ : Type} (R : σ → τ → Prop) : Py σ → Py τ → Prop
  | .ok a, .ok b => R a b
  | .error e, .error e' => e = e'
  | _, _ => False

theorem RelPy.bind {σ τ σ' τ' : Type} {R : σ → τ → Prop} {R' : σ' → τ' → Prop} {x : Py σ} {y : Py τ}
    {f : σ → Py σ'} {g : τ → Py τ'} (h : RelPy R x y) (hf : ∀ a b, R a b → RelPy R' (f a) (g b)) :
    RelPy R' (x >>= f) (y >>= g) := by
  cases x with
  | error e =>
    cases y with
    | error e' => exact h
    | ok b => exact h.elim
  | ok a =>
    cases y with
    | error e' => exact h.elim
    | ok b => exact hf a b h

theorem RelPy.refl {σ : Type} {R : σ → σ → Prop} (hR : ∀ a, R a a) (x : Py σ) : RelPy R x x := by
  cases x with
  | error e => rfl
  | ok a => exact hR a

theorem relPy_eq {σ : Type} (x y : Py σ) : RelPy (· = ·) x y ↔ x = y := by
  cases x <;> cases y <;> simp [RelPy]

theorem forall₂_mem {α β : Type} {R : α → β → Prop} {l : List α} {l' : List β}
    (h : List.Forall₂ R l l') : List.Forall₂ (fun a b => a ∈ l ∧ R a b) l l' := by
  induction h with
  | nil => exact .nil
  | cons h1 h2 ih =>
    refine .cons ⟨List.mem_cons_self .., h1⟩ (ih.imp fun a b hab => ?_)
    exact ⟨List.mem_cons_of_mem _ hab.1, hab.2⟩

theorem forall₂_diag {α : Type} (l : List α) : List.Forall₂ (fun a b => a ∈ l ∧ a = b) l l :=
  forall₂_mem (List.forall₂_same.mpr fun _ _ => rfl)

theorem foldlM_rel {σ τ α β : Type} {R : σ → τ → Prop} {P : α → β → Prop} {f : σ → α → Py σ}
    {g : τ → β → Py τ} (h : ∀ s t a b, P a b → R s t → RelPy R (f s a) (g t b)) {l : List α}
    {l' : List β} (hl : List.Forall₂ P l l') (s : σ) (t : τ) (hst : R s t) :
    RelPy R (l.foldlM f s) (l'.foldlM g t) := by
  induction hl generalizing s t with
  | nil => exact hst
  | cons h1 _ ih =>
    rw [List.foldlM_cons, List.foldlM_cons]
    exact (h s t _ _ h1 hst).bind fun a b hab => ih a b hab

/-! ### Spelling of tags -/

theorem alike_iff (x x' : Xml) : Spec.Alike x x' ↔ elementType x.tag = elementType x'.tag ∧
    x.attrs = x'.attrs ∧ x.text = x'.text ∧ List.Forall₂ Spec.Alike x.children x'.children := by
  constructor
  · rintro ⟨h1, h2, h3, h4⟩
    rw [named_iff] at h1 h2
    refine ⟨h1 ▸ h2, rfl, rfl, List.forall₂_iff_zip.mpr ⟨h3, fun {a b} hab => h4 (a, b) hab⟩⟩
  · cases x with
    | mk t a s c =>
      cases x' with
      | mk t' a' s' c' =>
        rintro ⟨h1, h2, h3, h4⟩
        simp only [Xml.attrs, Xml.text] at h2 h3
        subst h2 h3
        have h5 := List.forall₂_iff_zip.mp h4
        exact .mk ((named_iff _ _).mpr rfl) ((named_iff _ _).mpr h1) h5.1
          fun p hp => by obtain ⟨u, v⟩ := p; exact h5.2 hp

theorem readCommon_alike (compat : ℕ) (strict : Bool) (b : Base K) {c c' : Xml} (h : Spec.Alike c c') :
    readCommon compat strict b c = readCommon compat strict b c' := by
  obtain ⟨h1, h2, h3, _⟩ := (alike_iff _ _).mp h
  unfold readCommon
  rw [h1, h2, h3]

theorem readArrayChild_alike (A : Arith K) (b : Base K) (r : Bool) {c c' : Xml} (h : Spec.Alike c c') :
    readArrayChild A b r c = readArrayChild A b r c' := by
  obtain ⟨h1, h2, h3, _⟩ := (alike_iff _ _).mp h
  unfold readArrayChild Arr.read SArr.read
  rw [h2, h3]

theorem readIndexMapChild_alike (b : Base K) {c c' : Xml} (h : Spec.Alike c c') :
    readIndexMapChild b c = readIndexMapChild b c' := by
  obtain ⟨h1, h2, h3, _⟩ := (alike_iff _ _).mp h
  unfold readIndexMapChild IndexMap.read
  rw [h2, h3]

theorem readCdlChild_alike (v : CdlValues K) {c c' : Xml} (h : Spec.Alike c c') :
    readCdlChild v c = readCdlChild v c' := by
  obtain ⟨h1, h2, h3, h4⟩ := (alike_iff _ _).mp h
  unfold readCdlChild
  rw [h1]
  have e1 : c.children.foldlM readSop v = c'.children.foldlM readSop v := by
    rw [← relPy_eq]
    refine foldlM_rel (fun s t a b hab hst => ?_) h4 v v rfl
    subst hst
    rw [relPy_eq]
    obtain ⟨g1, _, g3, _⟩ := (alike_iff _ _).mp hab
    unfold readSop; rw [g1, g3]
  have e2 : c.children.foldlM readSat v = c'.children.foldlM readSat v := by
    rw [← relPy_eq]
    refine foldlM_rel (fun s t a b hab hst => ?_) h4 v v rfl
    subst hst
    rw [relPy_eq]
    obtain ⟨g1, _, g3, _⟩ := (alike_iff _ _).mp hab
    unfold readSat; rw [g1, g3]
  rw [e1, e2]

theorem floatAttr_alike {c c' : Xml} (h : c.attrs = c'.attrs) (k : String) (d : Flt K) :
    floatAttr c k d = floatAttr c' k d := by
  unfold floatAttr; rw [h]

theorem readLeafChild_alike (A : Arith K) (k : Kind K) (b : Base K) {c c' : Xml} (h : Spec.Alike c c') :
    readLeafChild A k b c = readLeafChild A k b c' := by
  obtain ⟨h1, h2, h3, h4⟩ := (alike_iff _ _).mp h
  unfold readLeafChild
  cases k <;>
    simp only [h1, h2, h3, floatAttr_alike h2, readArrayChild_alike A b _ h, readIndexMapChild_alike b h,
      readCdlChild_alike _ h]

theorem readElem_alike (cls : Cls K) {c c' : Xml} (h : Spec.Alike c c') :
    readElem cls c = readElem cls c' := by
  obtain ⟨h1, h2, h3, h4⟩ := (alike_iff _ _).mp h
  have e : readInfo c = readInfo c' := by
    unfold readInfo
    generalize c.children = l at h4 ⊢
    generalize c'.children = l' at h4 ⊢
    induction h4 with
    | nil => rfl
    | cons g _ ih =>
      obtain ⟨g1, _, g3, _⟩ := (alike_iff _ _).mp g
      rw [List.filterMap_cons, List.filterMap_cons, ih, g1, g3]
  unfold readElem
  cases cls <;> simp only [h3, e]

theorem readNode_alike (A : Arith K) (compat : ℕ) (load : String → Py (Option (List (Node K))))
    (x : Xml) : ∀ (x' : Xml) (strict : Bool), Spec.Alike x x' →
    readNode A compat load strict x = readNode A compat load strict x' := by
  induction x using Xml.ind with
  | h t a s cs ih =>
    intro x' strict hx
    obtain ⟨h1, h2, h3, h4⟩ := (alike_iff _ _).mp hx
    rw [readNode_mk, readNode_mk, h1, h2]
    have h5 := forall₂_mem h4
    cases hc : classOf (K := K) (elementType x'.tag) with
    | none => rfl
    | some cls =>
      cases cls with
      | leaf k b =>
        simp only [readLeaf]
        congr 1
        rw [← relPy_eq]
        refine foldlM_rel (fun s t c d hcd hst => ?_) h4 _ _ rfl
        subst hst
        rw [relPy_eq]
        unfold readLeafStep
        rw [readCommon_alike _ _ _ hcd, readLeafChild_alike _ _ _ hcd]
      | group =>
        simp only [readGroup_eq]
        congr 1
        rw [← relPy_eq]
        refine foldlM_rel (fun s t c d hcd hst => ?_) h5 _ _ rfl
        subst hst
        rw [relPy_eq]
        unfold readGroupStep
        rw [readCommon_alike _ _ _ hcd.2, ih c hcd.1 d false hcd.2, ((alike_iff _ _).mp hcd.2).1]
        simp only [readElem_alike _ hcd.2]
      | reference =>
        simp only []
        congr 1
        rw [← relPy_eq]
        refine foldlM_rel (fun s t c d hcd hst => ?_) h4 _ _ rfl
        subst hst
        rw [relPy_eq]
        unfold readRefStep
        rw [readCommon_alike _ _ _ hcd]
      | processNode => rfl
      | comment t => rfl
      | info => rfl

theorem readList_alike (A : Arith K) (compat : ℕ) (load : String → Py (Option (List (Node K))))
    (strict : Bool) (t t' : String) (a : Dict String) (s : Option String) {cs cs' : List Xml}
    (h : List.Forall₂ Spec.Alike cs cs') :
    readList A compat load strict (.mk t a s cs) = readList A compat load strict (.mk t' a s cs') := by
  unfold readList
  simp only [Xml.attrs, Xml.children]
  rw [← relPy_eq]
  refine foldlM_rel (fun s t c d hcd hst => ?_) h _ _ rfl
  subst hst
  rw [relPy_eq]
  unfold readListStep
  rw [((alike_iff _ _).mp hcd).1, readNode_alike A compat load c d strict hcd]
  simp only [readElem_alike _ hcd]

/-! ### Kinds -/

theorem classOf_leaf_name (t : String) (k : Kind K) (b b' : Base K) (h : classOf t = some (.leaf k b)) :
    Spec.nameOf (.leaf k b') = t := by
  unfold classOf at h
  iterate 12
    rcases ite_eq_some h with ⟨rfl, e⟩ | ⟨_, h⟩
    · cases e; try rfl
  iterate 5
    rcases ite_eq_some h with ⟨rfl, e⟩ | ⟨_, h⟩
    · cases e
  cases h

theorem classOf_group_name (t : String) (h : classOf (K := K) t = some .group) : t = "Group" := by
  unfold classOf at h
  iterate 12
    rcases ite_eq_some h with ⟨rfl, e⟩ | ⟨_, h⟩
    · cases e; try rfl
  iterate 5
    rcases ite_eq_some h with ⟨rfl, e⟩ | ⟨_, h⟩
    · cases e
  cases h

theorem classOf_reference_name (t : String) (h : classOf (K := K) t = some .reference) :
    t = "Reference" := by
  unfold classOf at h
  iterate 12
    rcases ite_eq_some h with ⟨rfl, e⟩ | ⟨_, h⟩
    · cases e; try rfl
  iterate 5
    rcases ite_eq_some h with ⟨rfl, e⟩ | ⟨_, h⟩
    · cases e
  cases h

theorem bind_pure_pair {α β : Type} {x : Py α} {f : α → β} {r : β}
    (h : (x >>= fun a => (pure (f a) : Py β)) = .ok r) : ∃ a, x = .ok a ∧ r = f a := by
  obtain ⟨a, h1, h2⟩ := py_bind_eq_ok.mp h
  injection h2 with h2
  exact ⟨a, h1, h2.symm⟩

theorem readLeafChild_name (A : Arith K) (k k' : Kind K) (b b' b'' : Base K) (c : Xml)
    (h : readLeafChild A k b c = .ok (k', b')) :
    Spec.nameOf (.leaf k' b'') = Spec.nameOf (.leaf k b'') := by
  unfold readLeafChild at h
  cases k with
  | range =>
    simp only at h
    by_cases hc : isRangeValue (elementType c.tag) = true
    · rw [if_pos hc] at h
      obtain ⟨a, _, h2⟩ := bind_pure_pair h
      cases h2; rfl
    · rw [if_neg hc] at h; cases h; rfl
  | matrix =>
    simp only at h
    by_cases hc : elementType c.tag = "Array"
    · rw [if_pos hc] at h
      obtain ⟨a, _, h2⟩ := bind_pure_pair h
      cases h2; rfl
    · rw [if_neg hc] at h; cases h; rfl
  | lut1d =>
    simp only at h
    by_cases hc : elementType c.tag = "Array"
    · rw [if_pos hc] at h
      obtain ⟨a, _, h2⟩ := bind_pure_pair h
      cases h2; rfl
    · rw [if_neg hc] at h
      by_cases hd : elementType c.tag = "IndexMap"
      · rw [if_pos hd] at h
        obtain ⟨a, _, h2⟩ := bind_pure_pair h
        cases h2; rfl
      · rw [if_neg hd] at h; cases h; rfl
  | lut3d =>
    simp only at h
    by_cases hc : elementType c.tag = "Array"
    · rw [if_pos hc] at h
      obtain ⟨a, _, h2⟩ := bind_pure_pair h
      cases h2; rfl
    · rw [if_neg hc] at h
      by_cases hd : elementType c.tag = "IndexMap"
      · rw [if_pos hd] at h
        obtain ⟨a, _, h2⟩ := bind_pure_pair h
        cases h2; rfl
      · rw [if_neg hd] at h; cases h; rfl
  | cdl cc v =>
    simp only at h
    obtain ⟨a, _, h2⟩ := bind_pure_pair h
    cases h2; cases cc <;> rfl
  | exposureContrast e ct p =>
    simp only at h
    by_cases hc : elementType c.tag = "ECParams"
    · rw [if_pos hc] at h
      obtain ⟨_, _, h⟩ := py_bind_eq_ok.mp h
      obtain ⟨_, _, h⟩ := py_bind_eq_ok.mp h
      obtain ⟨a, _, h2⟩ := bind_pure_pair h
      cases h2; rfl
    · rw [if_neg hc] at h; cases h; rfl
  | gamma ps =>
    simp only at h
    by_cases hc : elementType c.tag = "GammaParams"
    · rw [if_pos hc] at h
      obtain ⟨_, _, h⟩ := py_bind_eq_ok.mp h
      obtain ⟨a, _, h2⟩ := bind_pure_pair h
      cases h2; rfl
    · rw [if_neg hc] at h; cases h; rfl
  | log ps =>
    simp only at h
    by_cases hc : elementType c.tag = "LogParams"
    · rw [if_pos hc] at h
      obtain ⟨_, _, h⟩ := py_bind_eq_ok.mp h
      obtain ⟨_, _, h⟩ := py_bind_eq_ok.mp h
      obtain ⟨_, _, h⟩ := py_bind_eq_ok.mp h
      obtain ⟨_, _, h⟩ := py_bind_eq_ok.mp h
      obtain ⟨a, _, h2⟩ := bind_pure_pair h
      cases h2; rfl
    · rw [if_neg hc] at h; cases h; rfl
  | plain => simp only at h; cases h; rfl

theorem foldlM_keeps {σ α : Type} {f : σ → α → Py σ} (I : σ → Prop)
    (h : ∀ s a r, I s → f s a = .ok r → I r) (l : List α) (s r : σ) (hs : I s)
    (hr : l.foldlM f s = .ok r) : I r := by
  induction l generalizing s with
  | nil => cases hr; exact hs
  | cons a l ih =>
    rw [List.foldlM_cons] at hr
    obtain ⟨t, h1, h2⟩ := py_bind_eq_ok.mp hr
    exact ih t (h s a t hs h1) h2

theorem readNode_name (A : Arith K) (compat : ℕ) (load : String → Py (Option (List (Node K))))
    (strict : Bool) (x : Xml) (n : Node K) (h : readNode A compat load strict x = .ok n) :
    Spec.nameOf n = elementType x.tag := by
  rw [readNode_mk] at h
  cases hc : classOf (K := K) (elementType x.tag) with
  | none => rw [hc] at h; cases h
  | some cls =>
    rw [hc] at h
    cases cls with
    | leaf k b =>
      simp only [readLeaf] at h
      obtain ⟨⟨k', b'⟩, h1, h2⟩ := py_bind_eq_ok.mp h
      cases h2
      have := foldlM_keeps (fun s => ∀ b'', Spec.nameOf (.leaf s.1 b'') = Spec.nameOf (.leaf k b''))
        (fun s a r hs hr b'' => by
          unfold readLeafStep at hr
          obtain ⟨o, g1, g2⟩ := py_bind_eq_ok.mp hr
          cases o with
          | some b3 => cases g2; exact hs b''
          | none => exact (readLeafChild_name A s.1 r.1 s.2 r.2 b'' a g2).trans (hs b''))
        _ _ _ (fun _ => rfl) h1
      rw [this b']
      exact classOf_leaf_name _ _ _ _ hc
    | group =>
      simp only [] at h
      obtain ⟨⟨b', ns⟩, h1, h2⟩ := py_bind_eq_ok.mp h
      cases h2
      exact (classOf_group_name _ hc).symm
    | reference =>
      simp only [] at h
      obtain ⟨b', h1, h2⟩ := py_bind_eq_ok.mp h
      unfold resolveRef at h2
      obtain ⟨p, h3, h4⟩ := py_bind_eq_ok.mp h2
      obtain ⟨o, h5, h6⟩ := py_bind_eq_ok.mp h4
      rw [classOf_reference_name _ hc]
      cases o <;> cases h6 <;> rfl
    | processNode => cases h
    | comment t => cases h
    | info => cases h

/-! ### Feature masks -/

/-- A node's state without dynamic parameters. -/
def Base.noDyn (b : Base K) : Base K := { b with dyn := [] }

theorem eraseDynAll_eq (ns : List (Node K)) : Spec.eraseDynAll ns = ns.map Spec.eraseDyn := by
  induction ns with
  | nil => rw [Spec.eraseDynAll]; rfl
  | cons n ns ih => rw [Spec.eraseDynAll, ih]; rfl

theorem readCommon_mask (m m' : ℕ) (b b' : Base K) (c : Xml) (h : b.noDyn = b'.noDyn) :
    RelPy (fun o o' => o.map Base.noDyn = o'.map Base.noDyn) (readCommon m false b c)
      (readCommon m' false b' c) := by
  obtain ⟨a, v, d, e⟩ := b
  obtain ⟨a', v', d', e'⟩ := b'
  simp only [Base.noDyn, Base.mk.injEq] at h
  obtain ⟨rfl, rfl, -, rfl⟩ := h
  unfold readCommon
  simp only
  by_cases h1 : elementType c.tag = "Description"
  · rw [if_pos h1, if_pos h1]; rfl
  · rw [if_neg h1, if_neg h1]
    by_cases h2 : elementType c.tag = "DynamicParameter"
    · rw [if_pos h2, if_pos h2]
      cases c.attrs.get? "param" <;> cases hasFeature m autodesk <;> cases hasFeature m' autodesk <;> rfl
    · rw [if_neg h2, if_neg h2]; rfl

theorem readArrayChild_mask (A : Arith K) (b b' : Base K) (r : Bool) (c : Xml) (h : b.noDyn = b'.noDyn) :
    RelPy (fun s s' => s.noDyn = s'.noDyn) (readArrayChild A b r c) (readArrayChild A b' r c) := by
  obtain ⟨a, v, d, e⟩ := b
  obtain ⟨a', v', d', e'⟩ := b'
  simp only [Base.noDyn, Base.mk.injEq] at h
  obtain ⟨rfl, rfl, -, rfl⟩ := h
  unfold readArrayChild
  exact (RelPy.refl (R := (· = ·)) (fun _ => rfl) _).bind fun x y hxy => by subst hxy; rfl

theorem readIndexMapChild_mask (b b' : Base K) (c : Xml) (h : b.noDyn = b'.noDyn) :
    RelPy (fun s s' => s.noDyn = s'.noDyn) (readIndexMapChild b c) (readIndexMapChild b' c) := by
  obtain ⟨a, v, d, e⟩ := b
  obtain ⟨a', v', d', e'⟩ := b'
  simp only [Base.noDyn, Base.mk.injEq] at h
  obtain ⟨rfl, rfl, -, rfl⟩ := h
  unfold readIndexMapChild
  exact (RelPy.refl (R := (· = ·)) (fun _ => rfl) _).bind fun x y hxy => by subst hxy; rfl

theorem readLeafChild_mask (A : Arith K) (k : Kind K) (b b' : Base K) (c : Xml) (h : b.noDyn = b'.noDyn) :
    RelPy (fun s s' => s.1 = s'.1 ∧ s.2.noDyn = s'.2.noDyn) (readLeafChild A k b c)
      (readLeafChild A k b' c) := by
  have hA : ∀ r, RelPy (fun s s' => s.1 = s'.1 ∧ s.2.noDyn = s'.2.noDyn)
      (do pure (k, ← readArrayChild A b r c)) (do pure (k, ← readArrayChild A b' r c)) := fun r =>
    (readArrayChild_mask A b b' r c h).bind fun x y hxy => ⟨rfl, hxy⟩
  have hI : RelPy (fun s s' => s.1 = s'.1 ∧ s.2.noDyn = s'.2.noDyn)
      (do pure (k, ← readIndexMapChild b c)) (do pure (k, ← readIndexMapChild b' c)) :=
    (readIndexMapChild_mask b b' c h).bind fun x y hxy => ⟨rfl, hxy⟩
  have hN : RelPy (fun s s' : Kind K × Base K => s.1 = s'.1 ∧ s.2.noDyn = s'.2.noDyn)
      (.ok (k, b)) (.ok (k, b')) := ⟨rfl, h⟩
  have hE : ∀ {α : Type} (x : Py α) (f : α → Kind K),
      RelPy (fun s s' => s.1 = s'.1 ∧ s.2.noDyn = s'.2.noDyn) (do let a ← x; pure (f a, b))
        (do let a ← x; pure (f a, b')) := fun x f =>
    (RelPy.refl (R := (· = ·)) (fun _ => rfl) x).bind fun a b hab => by subst hab; exact ⟨rfl, h⟩
  have hR : ∀ {α : Type} (x : Py α) (f g : α → Py (Kind K × Base K)),
      (∀ a, RelPy (fun s s' => s.1 = s'.1 ∧ s.2.noDyn = s'.2.noDyn) (f a) (g a)) →
      RelPy (fun s s' => s.1 = s'.1 ∧ s.2.noDyn = s'.2.noDyn) (x >>= f) (x >>= g) := fun x f g hfg =>
    (RelPy.refl (R := (· = ·)) (fun _ => rfl) x).bind fun a b hab => by subst hab; exact hfg a
  have hflag : b.flag "rawHalfs" = b'.flag "rawHalfs" := by
    obtain ⟨a, v, d, e⟩ := b
    obtain ⟨a', v', d', e'⟩ := b'
    simp only [Base.noDyn, Base.mk.injEq] at h
    obtain ⟨rfl, rfl, -, rfl⟩ := h
    rfl
  unfold readLeafChild
  cases k with
  | range =>
    simp only
    by_cases hc : isRangeValue (elementType c.tag) = true
    · rw [if_pos hc, if_pos hc]
      refine hR _ _ _ fun a => ⟨rfl, ?_⟩
      obtain ⟨a, v, d, e⟩ := b
      obtain ⟨a', v', d', e'⟩ := b'
      simp only [Base.noDyn, Base.mk.injEq] at h
      obtain ⟨rfl, rfl, -, rfl⟩ := h
      rfl
    · rw [if_neg hc, if_neg hc]; exact hN
  | matrix =>
    simp only
    by_cases hc : elementType c.tag = "Array"
    · rw [if_pos hc, if_pos hc]; exact hA _
    · rw [if_neg hc, if_neg hc]; exact hN
  | lut1d =>
    simp only
    by_cases hc : elementType c.tag = "Array"
    · rw [if_pos hc, if_pos hc, hflag]; exact hA _
    · rw [if_neg hc, if_neg hc]
      by_cases hd : elementType c.tag = "IndexMap"
      · rw [if_pos hd, if_pos hd]; exact hI
      · rw [if_neg hd, if_neg hd]; exact hN
  | lut3d =>
    simp only
    by_cases hc : elementType c.tag = "Array"
    · rw [if_pos hc, if_pos hc]; exact hA _
    · rw [if_neg hc, if_neg hc]
      by_cases hd : elementType c.tag = "IndexMap"
      · rw [if_pos hd, if_pos hd]; exact hI
      · rw [if_neg hd, if_neg hd]; exact hN
  | cdl cc v => exact hR _ _ _ fun a => ⟨rfl, h⟩
  | exposureContrast e ct p =>
    simp only
    by_cases hc : elementType c.tag = "ECParams"
    · rw [if_pos hc, if_pos hc]
      exact hR _ _ _ fun a => hR _ _ _ fun a => hR _ _ _ fun a => ⟨rfl, h⟩
    · rw [if_neg hc, if_neg hc]; exact hN
  | gamma ps =>
    simp only
    by_cases hc : elementType c.tag = "GammaParams"
    · rw [if_pos hc, if_pos hc]
      exact hR _ _ _ fun a => hR _ _ _ fun a => ⟨rfl, h⟩
    · rw [if_neg hc, if_neg hc]; exact hN
  | log ps =>
    simp only
    by_cases hc : elementType c.tag = "LogParams"
    · rw [if_pos hc, if_pos hc]
      exact hR _ _ _ fun a => hR _ _ _ fun a => hR _ _ _ fun a => hR _ _ _ fun a =>
        hR _ _ _ fun a => ⟨rfl, h⟩
    · rw [if_neg hc, if_neg hc]; exact hN
  | plain => exact hN

theorem readNode_mask (A : Arith K) (m m' : ℕ) (load : String → Py (Option (List (Node K))))
    (x : Xml) : RelPy (fun n n' => Spec.eraseDyn n = Spec.eraseDyn n')
      (readNode A m load false x) (readNode A m' load false x) := by
  induction x using Xml.ind with
  | h t a s cs ih =>
    rw [readNode_mk, readNode_mk]
    simp only [Xml.tag, Xml.attrs, Xml.children]
    cases hc : classOf (K := K) (elementType t) with
    | none => rfl
    | some cls =>
      cases cls with
      | leaf k b =>
        simp only [readLeaf]
        refine RelPy.bind (R := fun s s' => s.1 = s'.1 ∧ s.2.noDyn = s'.2.noDyn)
          (foldlM_rel (fun s s' c c' hcc hs => ?_) (forall₂_diag cs) _ _ ⟨rfl, rfl⟩) ?_
        · obtain ⟨_, rfl⟩ := hcc
          obtain ⟨h1, h2⟩ := hs
          unfold readLeafStep
          refine (readCommon_mask m m' _ _ c h2).bind fun o o' ho => ?_
          cases o with
          | none =>
            cases o' with
            | none => rw [h1]; exact readLeafChild_mask A _ _ _ c h2
            | some b' => cases ho
          | some b =>
            cases o' with
            | none => cases ho
            | some b' => injection ho with ho; exact ⟨h1, ho⟩
        · rintro ⟨k1, b1⟩ ⟨k2, b2⟩ ⟨h1, h2⟩
          simp only at h1 h2
          subst h1
          show Spec.eraseDyn (.leaf k1 b1) = Spec.eraseDyn (.leaf k1 b2)
          rw [Spec.eraseDyn, Spec.eraseDyn]
          exact congrArg _ h2
      | group =>
        simp only [readGroup_eq]
        refine RelPy.bind (R := fun s s' => s.1.noDyn = s'.1.noDyn ∧
            s.2.map Spec.eraseDyn = s'.2.map Spec.eraseDyn)
          (foldlM_rel (fun s s' c c' hcc hs => ?_) (forall₂_diag cs) _ _ ⟨rfl, rfl⟩) ?_
        · obtain ⟨hmem, rfl⟩ := hcc
          obtain ⟨h1, h2⟩ := hs
          unfold readGroupStep
          refine (readCommon_mask m m' _ _ c h1).bind fun o o' ho => ?_
          cases o with
          | none =>
            cases o' with
            | none =>
              simp only
              cases classOf (K := K) (elementType c.tag) with
              | none => exact ⟨h1, h2⟩
              | some cls =>
                simp only
                by_cases hn : cls.isNode = true
                · rw [if_pos hn, if_pos hn]
                  refine (ih c hmem).bind fun n n' hnn => ⟨h1, ?_⟩
                  simp only [List.map_append, List.map_cons, List.map_nil]
                  rw [h2, hnn]
                · rw [if_neg hn, if_neg hn]
                  refine ⟨?_, h2⟩
                  simp only [Base.noDyn, Base.mk.injEq, Base.addElement] at h1 ⊢
                  obtain ⟨e1, e2, e3, e4⟩ := h1
                  exact ⟨e1, e2, trivial, by rw [e4]⟩
            | some b' => cases ho
          | some b =>
            cases o' with
            | none => cases ho
            | some b' => injection ho with ho; exact ⟨ho, h2⟩
        · rintro ⟨b1, n1⟩ ⟨b2, n2⟩ ⟨h1, h2⟩
          show Spec.eraseDyn (.group b1 n1) = Spec.eraseDyn (.group b2 n2)
          rw [Spec.eraseDyn, Spec.eraseDyn, eraseDynAll_eq, eraseDynAll_eq]
          simp only at h1 h2
          rw [h2]
          exact congrArg (fun b => Node.group b _) h1
      | reference =>
        simp only []
        refine RelPy.bind (R := fun s s' => s.noDyn = s'.noDyn)
          (foldlM_rel (fun s s' c c' hcc hs => ?_) (forall₂_diag cs) _ _ rfl) ?_
        · obtain ⟨_, rfl⟩ := hcc
          unfold readRefStep
          refine (readCommon_mask m m' _ _ c hs).bind fun o o' ho => ?_
          cases o with
          | none =>
            cases o' with
            | none => exact hs
            | some b' => cases ho
          | some b =>
            cases o' with
            | none => cases ho
            | some b' => injection ho
        · intro b b' h
          unfold resolveRef
          have e : b.attrs = b'.attrs := by simpa [Base.noDyn] using congrArg Base.attrs h
          rw [e]
          refine (RelPy.refl (R := (· = ·)) (fun _ => rfl) _).bind fun p p' hp => ?_
          subst hp
          refine (RelPy.refl (R := (· = ·)) (fun _ => rfl) _).bind fun o o' ho => ?_
          subst ho
          cases o with
          | none =>
            show Spec.eraseDyn _ = Spec.eraseDyn _
            rw [Spec.eraseDyn, Spec.eraseDyn]
            exact congrArg (fun b => Node.refMissing b _) h
          | some ns =>
            show Spec.eraseDyn _ = Spec.eraseDyn _
            rw [Spec.eraseDyn, Spec.eraseDyn]
            exact congrArg (fun b => Node.ref b _ _) h
      | processNode => rfl
      | comment t => rfl
      | info => rfl

end CLF
