import Verif.Lemmas.RoundTrip
import Verif.Lemmas.Nodes

/-! # Writing lists and reading them back: groups, references, lists -/

set_option linter.unusedSectionVars false

namespace CLF

variable {K : Type} [Field K] [LinearOrder K] [IsStrictOrderedRing K] [FloorRing K]

theorem writeBase_shape (compat : ℕ) (tag : String) (b : Base K) (extra : List Xml) (x : Xml)
    (hw : writeBase compat tag b extra = .ok x) :
    x.tag = tag ∧ x.reparse.attrs = b.attrs.map fun kv => (kv.1, kv.2.text) := by
  unfold writeBase at hw
  obtain ⟨xs, _, h2⟩ := py_bind_eq_ok.mp hw
  cases h2
  rw [reparse_mk]
  exact ⟨rfl, rfl⟩

theorem fold_values_nil {σ : Type} (st : σ → Xml → Py σ) (emb : Base K → σ) (d : Dict (Flt K)) (hd : d = [])
    (b0 : Base K) (hb : b0.values = []) :
    ((d.map valElem).map Xml.reparse).foldlM st (emb b0) = .ok (emb { b0 with values := [] }) := by
  subst hd
  cases b0; cases hb; rfl

/-! ## References -/

theorem readRefStep_common (compat : ℕ) (strict : Bool) (b b' : Base K)
    (c : Xml) (h : readCommon compat strict b c = .ok (some b')) :
    readRefStep compat strict b c = .ok b' := by
  unfold readRefStep
  rw [h]; rfl

theorem refBase_back (A : Arith K) (compat : ℕ) (load : String → Py (Option (List (Node K)))) (strict : Bool)
    (b : Base K) (ha : Spec.AttrsOk Spec.commonKeys b.attrs) (hv : b.values = [])
    (hd : Spec.DynOk compat b) (he : ∀ e ∈ b.elements, Spec.DescriptionOk e) (p : String)
    (hp : Spec.Names b p) (x : Xml) (hw : writeBase compat "Reference" b [] = .ok x) :
    ∃ b', Spec.SameBase A b b' ∧ readNode A compat load strict x.reparse = (do
      match ← load p with
      | some ns => pure (.ref b' false ns)
      | none => pure (.refMissing b' false)) := by
  obtain ⟨hx1, hx2⟩ := writeBase_shape compat _ b _ x hw
  have hattr := attrs_back _ _ ha (defaultBase (K := K)) rfl
  have hempty : ∀ l, (readAttrs (K := K) defaultBase l).values = [] ∧
      (readAttrs (K := K) defaultBase l).dyn = [] ∧ (readAttrs (K := K) defaultBase l).elements = [] := by
    intro l; rw [readAttrs_eq]; exact ⟨rfl, rfl, rfl⟩
  generalize hb0 : readAttrs defaultBase (b.attrs.map fun kv => (kv.1, kv.2.text)) = b0 at hattr
  have hempty : b0.values = [] ∧ b0.dyn = [] ∧ b0.elements = [] := hb0 ▸ hempty _
  obtain ⟨es', h1, -, -, h4⟩ := base_back (readRefStep compat strict) id compat strict A "Reference" b []
    x hw b0 hempty (readRefStep_common compat strict) hd [] (fold_values_nil _ id _ hv b0 hempty.1)
    (fun e hm y hy c hc => description_back (readRefStep compat strict) id compat strict A
      (readRefStep_common compat strict) e (he e hm) y hy c)
  refine ⟨⟨b0.attrs, [], b.dyn, es'⟩, ⟨hattr, by rw [hv]; exact fun _ => .none, rfl, h1⟩, ?_⟩
  have ht : elementType x.reparse.tag = "Reference" := by rw [reparse_tag, hx1]; decide
  rw [readNode_mk, ht, classOf_reference]
  simp only
  rw [hx2, hb0]
  have h4' : x.reparse.children.foldlM (readRefStep compat strict) b0 = .ok ⟨b0.attrs, [], b.dyn, es'⟩ := h4
  rw [h4', py_ok_bind]
  unfold resolveRef
  simp only
  obtain ⟨base, path, h5, h6, h7⟩ := hp
  have hg := sameDict_eq _ _ hattr
  rw [hg, hg, h5]
  have h8 : (b.attrs.get? "basePath").getD (.str "") = .str base := by
    rcases h6 with h6 | ⟨h6, rfl⟩ <;> rw [h6] <;> rfl
  rw [h8, Option.getD_some, joinPath_joins _ _ _ h7, py_ok_bind]
  cases load p with
  | error e => rfl
  | ok o => cases o <;> rfl

/-! ## Comments and `Info` -/

theorem readInfo_back (ps : List (String × Option String))
    (h : ∀ p ∈ ps, p.1 ∈ ["AppRelease", "Copyright", "Release"] ∧ p.2 ≠ some "") (t : String)
    (a : Dict String) (s : Option String) :
    readInfo (.mk t a s ((ps.map fun c => Xml.mk c.1 [] c.2 []).map Xml.reparse)) = ps := by
  unfold readInfo
  simp only [Xml.children]
  induction ps with
  | nil => rfl
  | cons p ps ih =>
    obtain ⟨q, w⟩ := p
    obtain ⟨h1, h2⟩ := h _ (List.mem_cons_self ..)
    simp only at h1 h2
    have ht : elementType q = q ∧ (q = "AppRelease" ∨ q = "Copyright" ∨ q = "Release") := by
      simp only [List.mem_cons, List.not_mem_nil, or_false] at h1
      rcases h1 with rfl | rfl | rfl <;> decide
    rw [List.map_cons, List.map_cons, List.filterMap_cons]
    have e : (Xml.mk q [] w []).reparse.tag = q := by rw [reparse_tag]; rfl
    have e2 : (Xml.mk q [] w []).reparse.text = w := by
      rw [reparse_mk]; exact normText_of_ne w h2
    simp only [e, e2, ht.1]
    rw [if_pos ht.2]
    simp only
    rw [ih fun p hp => h p (List.mem_cons_of_mem _ hp)]

/-- How an element of a list or group is read. -/
theorem infoElem_back (compat : ℕ) (e : Elem K) (h : Spec.InfoElemOk e) (x : Xml)
    (hw : e.write compat = .ok x) :
    ∃ cls, classOf (K := K) (elementType x.reparse.tag) = some cls ∧ cls.isNode = false ∧
      readElem cls x.reparse = e ∧ elementType x.reparse.tag ≠ "DynamicParameter" ∧
      (elementType x.reparse.tag = "Description" → e = .comment "Description" x.reparse.text) := by
  rcases h with ⟨t, s, rfl, ht, hs⟩ | ⟨ps, rfl, hps⟩
  · cases hw
    have h1 : elementType t = t ∧ t ≠ "DynamicParameter" := by
      simp only [List.mem_cons, List.not_mem_nil, or_false] at ht
      rcases ht with rfl | rfl | rfl | rfl <;> decide
    have e : (Xml.mk t [] s []).reparse.tag = t := by rw [reparse_tag]; rfl
    have e2 : (Xml.mk t [] s []).reparse.text = s := by rw [reparse_mk]; exact normText_of_ne s hs
    refine ⟨.comment t, ?_, rfl, ?_, by rw [e, h1.1]; exact h1.2, ?_⟩
    · rw [e, h1.1]
      simp only [List.mem_cons, List.not_mem_nil, or_false] at ht
      rcases ht with rfl | rfl | rfl | rfl <;> rfl
    · unfold readElem
      simp only
      rw [e2]
    · rw [e, h1.1, e2]; rintro rfl; rfl
  · cases hw
    have ht : elementType (Xml.mk "Info" [] none (ps.map fun c => Xml.mk c.1 [] c.2 [])).reparse.tag
        = "Info" := by rw [reparse_tag]; show elementType "Info" = _; decide
    refine ⟨.info, by rw [ht]; rfl, rfl, ?_, by rw [ht]; decide, by rw [ht]; intro h; exact absurd h (by decide)⟩
    unfold readElem
    simp only
    rw [reparse_mk, readInfo_back ps hps]

theorem sameElem_info (A : Arith K) (e : Elem K) (h : Spec.InfoElemOk e) : Spec.SameElem A e e := by
  rcases h with ⟨t, s, rfl, _⟩ | ⟨ps, rfl, _⟩ <;> rfl

/-! ## Groups and nodes -/

theorem readGroupStep_common (A : Arith K) (compat : ℕ) (load : String → Py (Option (List (Node K))))
    (strict : Bool) (ns : List (Node K)) (b b' : Base K)
    (c : Xml) (h : readCommon compat strict b c = .ok (some b')) :
    readGroupStep A compat load strict (b, ns) c = .ok (b', ns) := by
  unfold readGroupStep
  rw [h]; rfl

theorem readCommon_none (compat : ℕ) (strict : Bool) (b : Base K) (c : Xml)
    (h1 : elementType c.tag ≠ "Description") (h2 : elementType c.tag ≠ "DynamicParameter") :
    readCommon compat strict b c = .ok none := by
  unfold readCommon
  simp only
  rw [if_neg h1, if_neg h2]

theorem groupElem_back (A : Arith K) (compat : ℕ) (load : String → Py (Option (List (Node K))))
    (strict : Bool) (e : Elem K) (h : Spec.InfoElemOk e) (x : Xml) (hw : e.write compat = .ok x)
    (b : Base K) : ∃ e', Spec.SameElem A e e' ∧
      readGroupStep A compat load strict (b, []) x.reparse = .ok (b.addElement e', []) := by
  refine ⟨e, sameElem_info A e h, ?_⟩
  obtain ⟨cls, h1, h2, h3, h4, h5⟩ := infoElem_back compat e h x hw
  by_cases hd : elementType x.reparse.tag = "Description"
  · apply readGroupStep_common
    unfold readCommon
    simp only
    rw [if_pos hd, ← h5 hd]
  · unfold readGroupStep
    rw [readCommon_none _ _ _ _ hd h4, py_ok_bind, h1]
    simp only [h2, h3]
    rfl

/-- What reading makes of a written node. -/
def NodeBack (A : Arith K) (compat : ℕ) (load : String → Py (Option (List (Node K)))) (n : Node K)
    (x : Xml) : Prop :=
  elementType x.reparse.tag = Spec.nameOf n ∧ Spec.nameOf n ∈ Spec.nodeNames ∧
  ∀ strict, ∃ n', readNode A compat load strict x.reparse = .ok n' ∧ Spec.SameNode A n n'

theorem fold_nodes (A : Arith K) (compat : ℕ) (load : String → Py (Option (List (Node K))))
    (strict : Bool) (cs : List (Node K)) (xs : List Xml)
    (h : List.Forall₂ (NodeBack A compat load) cs xs) (b : Base K) (ns : List (Node K)) :
    ∃ cs', List.Forall₂ (Spec.SameNode A) cs cs' ∧
      (xs.map Xml.reparse).foldlM (readGroupStep A compat load strict) (b, ns) = .ok (b, ns ++ cs') := by
  induction h generalizing ns with
  | nil => exact ⟨[], .nil, by simp only [List.map_nil, List.foldlM_nil, List.append_nil]; rfl⟩
  | @cons c x cs xs h1 _ ih =>
    obtain ⟨ht, hm, hr⟩ := h1
    obtain ⟨n', h2, h3⟩ := hr false
    obtain ⟨cs', h4, h5⟩ := ih (ns ++ [n'])
    refine ⟨n' :: cs', .cons h3 h4, ?_⟩
    have hd : Spec.nameOf c ≠ "Description" ∧ Spec.nameOf c ≠ "DynamicParameter" := by
      constructor <;> intro e <;> rw [e] at hm <;> revert hm <;> decide
    have hcls : ∃ cls, classOf (K := K) (elementType x.reparse.tag) = some cls ∧ cls.isNode = true := by
      cases hc : classOf (K := K) (elementType x.reparse.tag) with
      | none =>
        rw [classOf_none, ht] at hc
        exact absurd (.inl hm) hc
      | some cls =>
        refine ⟨cls, rfl, ?_⟩
        rcases classOf_isNode _ _ hc with h | ⟨_, h⟩
        · exact h.1
        · rw [ht] at h
          exact absurd h (nodeNames_infoNames _ hm)
    obtain ⟨cls, hc1, hc2⟩ := hcls
    have hs : readGroupStep A compat load strict (b, ns) x.reparse = .ok (b, ns ++ [n']) := by
      unfold readGroupStep
      rw [readCommon_none _ _ _ _ (by rw [ht]; exact hd.1) (by rw [ht]; exact hd.2), py_ok_bind, hc1]
      simp only [hc2, if_true, h2, py_ok_bind]
      rfl
    rw [List.map_cons, List.foldlM_cons, hs, py_ok_bind, h5]
    simp

theorem writeNodes_single (compat : ℕ) (flag : Option Bool) (R : Node K → Xml → Prop) (cs : List (Node K))
    (h : ∀ c ∈ cs, ∀ xs, c.write compat flag = .ok xs → ∃ x, xs = [x] ∧ R c x) (ys : List Xml)
    (hw : writeNodes compat flag cs = .ok ys) : List.Forall₂ R cs ys := by
  induction cs generalizing ys with
  | nil => rw [writeNodes] at hw; cases hw; exact .nil
  | cons c cs ih =>
    rw [writeNodes] at hw
    obtain ⟨xs, h1, h2⟩ := py_bind_eq_ok.mp hw
    obtain ⟨zs, h3, h4⟩ := py_bind_eq_ok.mp h2
    cases h4
    obtain ⟨x, rfl, hx⟩ := h c (List.mem_cons_self ..) xs h1
    exact .cons hx (ih (fun d hd => h d (List.mem_cons_of_mem _ hd)) zs h3)

theorem node_back (A : Arith K) (compat : ℕ) (load : String → Py (Option (List (Node K)))) (n : Node K) :
    ∀ flag : Option Bool, (flag = some false) → Spec.Storable compat load n → ∀ xs, n.write compat flag = .ok xs →
      ∃ x, xs = [x] ∧ NodeBack A compat load n x := by
  induction n using Node.ind with
  | hleaf k b =>
    intro flag _ hs xs hw
    cases hs with
    | leaf hk ha hv hd he =>
      rw [Node.write] at hw
      obtain ⟨x, h1, h2⟩ := py_bind_eq_ok.mp hw
      cases h2
      refine ⟨x, rfl, ?_, ?_, fun strict => leaf_back A compat load strict k b hk ha hv hd he x h1⟩
      · rw [reparse_tag, (writeBase_shape _ _ _ _ _ h1).1]
        cases k with
        | cdl cc v => cases cc <;> (simp only [Kind.tag, Spec.nameOf]; decide)
        | _ => simp only [Kind.tag, Spec.nameOf]; decide
      · cases k with
        | cdl cc v => cases cc <;> (simp only [Spec.nameOf]; decide)
        | _ => simp only [Spec.nameOf]; decide
  | hgroup b cs ih =>
    intro flag _ hs xs hw
    cases hs with
    | group ha hv hd he hcs =>
      rw [Node.write] at hw
      obtain ⟨ys, h1, h2⟩ := py_bind_eq_ok.mp hw
      obtain ⟨x, h3, h4⟩ := py_bind_eq_ok.mp h2
      cases h4
      have hch := writeNodes_single compat (some false) (NodeBack A compat load) cs
        (fun c hc xs hx => ih c hc _ rfl (hcs c hc) xs hx) ys h1
      obtain ⟨hx1, hx2⟩ := writeBase_shape compat _ b _ x h3
      have ht : elementType x.reparse.tag = "Group" := by rw [reparse_tag, hx1]; decide
      refine ⟨x, rfl, ht, by simp only [Spec.nameOf]; decide, fun strict => ?_⟩
      have hattr := attrs_back _ _ ha (defaultBase (K := K)) rfl
      have hempty : ∀ l, (readAttrs (K := K) defaultBase l).values = [] ∧
          (readAttrs (K := K) defaultBase l).dyn = [] ∧ (readAttrs (K := K) defaultBase l).elements = [] := by
        intro l; rw [readAttrs_eq]; exact ⟨rfl, rfl, rfl⟩
      generalize hb0 : readAttrs defaultBase (b.attrs.map fun kv => (kv.1, kv.2.text)) = b0 at hattr
      have hempty : b0.values = [] ∧ b0.dyn = [] ∧ b0.elements = [] := hb0 ▸ hempty _
      obtain ⟨es', g1, -, -, g4⟩ := base_back (readGroupStep A compat load strict) (fun b => (b, []))
        compat strict A "Group" b ys x h3 b0 hempty (readGroupStep_common A compat load strict []) hd []
        (fold_values_nil (readGroupStep A compat load strict) (fun b => (b, [])) _ hv b0 hempty.1)
        (fun e hm y hy c hc => groupElem_back A compat load strict e (he e hm) y hy c)
      obtain ⟨cs', g5, g6⟩ := fold_nodes A compat load strict cs ys hch ⟨b0.attrs, [], b.dyn, es'⟩ []
      refine ⟨.group ⟨b0.attrs, [], b.dyn, es'⟩ cs', ?_,
        .group ⟨hattr, by rw [hv]; exact fun _ => .none, rfl, g1⟩ g5⟩
      rw [readNode_mk, ht]
      have : classOf (K := K) "Group" = some .group := rfl
      rw [this]
      simp only
      rw [hx2, hb0, readGroup_eq, g4, g6]
      rfl
  | href b w ns _ =>
    intro flag hf hs xs hw
    subst hf
    cases hs with
    | ref ha hv hd he hn hl =>
      rw [Node.write] at hw
      simp only [Option.getD_some, Bool.false_eq_true, if_false] at hw
      obtain ⟨x, h1, h2⟩ := py_bind_eq_ok.mp hw
      cases h2
      have hx1 := (writeBase_shape compat _ b _ x h1).1
      refine ⟨x, rfl, by rw [reparse_tag, hx1]; simp only [Spec.nameOf]; decide,
        by simp only [Spec.nameOf]; decide, fun strict => ?_⟩
      obtain ⟨b', h3, h4⟩ := refBase_back A compat load strict b ha hv hd he _ hn x h1
      rw [hl] at h4
      exact ⟨_, h4, .ref h3⟩
  | hmiss b w =>
    intro flag hf hs xs hw
    subst hf
    cases hs with
    | refMissing ha hv hd he hn hl =>
      rw [Node.write] at hw
      simp only [Option.getD_some, Bool.false_eq_true, if_false] at hw
      obtain ⟨x, h1, h2⟩ := py_bind_eq_ok.mp hw
      cases h2
      have hx1 := (writeBase_shape compat _ b _ x h1).1
      refine ⟨x, rfl, by rw [reparse_tag, hx1]; simp only [Spec.nameOf]; decide,
        by simp only [Spec.nameOf]; decide, fun strict => ?_⟩
      obtain ⟨b', h3, h4⟩ := refBase_back A compat load strict b ha hv hd he _ hn x h1
      rw [hl] at h4
      exact ⟨_, h4, .refMissing h3⟩

/-! ## Lists -/

theorem fold_listElems (A : Arith K) (compat : ℕ) (load : String → Py (Option (List (Node K))))
    (strict : Bool) (es : List (Elem K)) (h : ∀ e ∈ es, Spec.InfoElemOk e) (xs : List Xml)
    (hw : es.mapM (Elem.write compat) = .ok xs) (l : PList K) :
    (xs.map Xml.reparse).foldlM (readListStep A compat load strict) l =
      .ok { l with elements := l.elements ++ es } := by
  induction es generalizing xs l with
  | nil => cases hw; simp only [List.map_nil, List.foldlM_nil, List.append_nil]; rfl
  | cons e es ih =>
    rw [py_mapM_cons] at hw
    obtain ⟨x, h1, h2⟩ := py_bind_eq_ok.mp hw
    obtain ⟨ys, h3, h4⟩ := py_bind_eq_ok.mp h2
    cases h4
    obtain ⟨cls, g1, g2, g3, _, _⟩ := infoElem_back compat e (h e (List.mem_cons_self ..)) x h1
    have hs : readListStep A compat load strict l x.reparse =
        .ok { l with elements := l.elements ++ [e] } := by
      unfold readListStep
      simp only [g1, g2, g3]
      rfl
    rw [List.map_cons, List.foldlM_cons, hs, py_ok_bind,
      ih (fun e he => h e (List.mem_cons_of_mem _ he)) ys h3]
    simp

theorem fold_listNodes (A : Arith K) (compat : ℕ) (load : String → Py (Option (List (Node K))))
    (strict : Bool) (ns : List (Node K)) (hs : strict = true → ∀ n ∈ ns, ∀ f,
      Spec.neededFeature (Spec.nameOf n) = some f → Spec.enabled compat f) (xs : List Xml)
    (h : List.Forall₂ (NodeBack A compat load) ns xs) (l : PList K) :
    ∃ ns', List.Forall₂ (Spec.SameNode A) ns ns' ∧
      (xs.map Xml.reparse).foldlM (readListStep A compat load strict) l =
        .ok { l with processes := l.processes ++ ns' } := by
  induction h generalizing l with
  | nil => exact ⟨[], .nil, by simp only [List.map_nil, List.foldlM_nil, List.append_nil]; rfl⟩
  | @cons c x cs xs h1 _ ih =>
    obtain ⟨ht, hm, hr⟩ := h1
    obtain ⟨n', h2, h3⟩ := hr strict
    obtain ⟨cs', h4, h5⟩ := ih (fun e n hn => hs e n (List.mem_cons_of_mem _ hn))
      { l with processes := l.processes ++ [n'] }
    refine ⟨n' :: cs', .cons h3 h4, ?_⟩
    have hcls : ∃ cls, classOf (K := K) (elementType x.reparse.tag) = some cls ∧ cls.isNode = true := by
      cases hc : classOf (K := K) (elementType x.reparse.tag) with
      | none =>
        rw [classOf_none, ht] at hc
        exact absurd (.inl hm) hc
      | some cls =>
        refine ⟨cls, rfl, ?_⟩
        rcases classOf_isNode _ _ hc with h | ⟨_, h⟩
        · exact h.1
        · rw [ht] at h
          exact absurd h (nodeNames_infoNames _ hm)
    obtain ⟨cls, hc1, hc2⟩ := hcls
    have hstep : readListStep A compat load strict l x.reparse =
        .ok { l with processes := l.processes ++ [n'] } := by
      unfold readListStep
      simp only [hc1, hc2, if_true, h2, py_ok_bind]
      rw [ht]
      cases hv : vendorOf (Spec.nameOf c) with
      | none => rfl
      | some f =>
        simp only
        rw [if_neg]
        · rfl
        · rw [Bool.and_eq_true, not_and]
          intro hf hst
          rw [vendorOf_eq] at hv
          have := (enabled_iff _ _).mp (hs hst c (List.mem_cons_self ..) f hv)
          rw [this] at hf
          cases hf
    rw [List.map_cons, List.foldlM_cons, hstep, py_ok_bind, h5]
    simp

theorem listAttrs_back (d : Dict AVal) (h1 : (d.map Prod.fst).Nodup)
    (h2 : ∀ kv ∈ d, ∃ s, kv.2 = .str s) : Spec.SameDict Eq d
      ((d.map fun kv => (kv.1, kv.2.text)).foldl (fun d kv => Dict.set d kv.1 (.str kv.2)) []) := by
  intro k
  rw [Dict.get?_foldl_set _ AVal.str (by rw [keys_text]; exact h1), Dict.get?_map]
  cases hk : d.get? k with
  | none => exact .none
  | some v =>
    obtain ⟨s, hs⟩ := h2 _ (Dict.mem_of_get? _ _ _ hk)
    simp only at hs
    subst hs
    exact .some rfl

/-- Reading back a document whose nodes were written one element each. -/
theorem list_back (A : Arith K) (compat : ℕ) (load : String → Py (Option (List (Node K)))) (strict : Bool)
    (attrs : Dict AVal) (es : List (Elem K)) (ns : List (Node K))
    (h1 : (attrs.map Prod.fst).Nodup) (h2 : ∀ kv ∈ attrs, ∃ s, kv.2 = .str s)
    (he : ∀ e ∈ es, Spec.InfoElemOk e) (xs ys : List Xml)
    (hx : es.mapM (Elem.write compat) = .ok xs) (hy : List.Forall₂ (NodeBack A compat load) ns ys)
    (hs : strict = true → ∀ n ∈ ns, ∀ f, Spec.neededFeature (Spec.nameOf n) = some f →
      Spec.enabled compat f) :
    ∃ l', readList A compat load strict (Xml.mk "ProcessList" (attrs.map fun kv => (kv.1, kv.2.text))
        none (xs ++ ys)).reparse = .ok l' ∧ Spec.SameDict Eq attrs l'.attrs ∧ l'.values = [] ∧
      l'.elements = es ∧ List.Forall₂ (Spec.SameNode A) ns l'.processes := by
  rw [reparse_mk]
  unfold readList
  simp only [Xml.attrs, Xml.children, List.map_append]
  obtain ⟨ns', g1, g2⟩ := fold_listNodes A compat load strict ns hs ys hy
    { attrs := (attrs.map fun kv => (kv.1, kv.2.text)).foldl
        (fun d kv => Dict.set d kv.1 (.str kv.2)) [], elements := es }
  refine ⟨⟨(attrs.map fun kv => (kv.1, kv.2.text)).foldl (fun d kv => Dict.set d kv.1 (.str kv.2)) [],
      [], es, ns'⟩,
    ?_, listAttrs_back attrs h1 h2, rfl, rfl, g1⟩
  rw [List.foldlM_append, fold_listElems A compat load strict es he xs hx, py_ok_bind]
  exact g2

end CLF
