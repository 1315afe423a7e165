import Verif.Lemmas.RoundTripList

/-! # Self-contained documents -/

set_option linter.unusedSectionVars false

namespace CLF

variable {K : Type} [Field K] [LinearOrder K] [IsStrictOrderedRing K] [FloorRing K]

/-! ## Writing without references -/

theorem refFree_child (b : Base K) (cs : List (Node K)) (h : Spec.RefFree (.group b cs)) (c : Node K)
    (hc : c ∈ cs) : Spec.RefFree c := fun m hm => h m (.group hc hm)

theorem writeNodes_congr (compat : ℕ) (f f' : Option Bool) (ns : List (Node K))
    (h : ∀ n ∈ ns, n.write compat f = n.write compat f') :
    writeNodes compat f ns = writeNodes compat f' ns := by
  induction ns with
  | nil => rw [writeNodes, writeNodes]
  | cons n ns ih =>
    rw [writeNodes, writeNodes, h n (List.mem_cons_self ..), ih fun m hm => h m (List.mem_cons_of_mem _ hm)]

theorem write_refFree (compat : ℕ) (n : Node K) (h : Spec.RefFree n) (f f' : Option Bool) :
    n.write compat f = n.write compat f' := by
  cases n with
  | leaf k b => rw [Node.write, Node.write]
  | group b cs => rw [Node.write, Node.write]
  | ref b w ns => exact absurd rfl ((h _ .self).1 b w ns)
  | refMissing b w => exact absurd rfl ((h _ .self).2 b w)

theorem writeNodes_append (compat : ℕ) (f : Option Bool) (ns ms : List (Node K)) :
    writeNodes compat f (ns ++ ms) = (do
      let xs ← writeNodes compat f ns
      let ys ← writeNodes compat f ms
      pure (xs ++ ys)) := by
  induction ns with
  | nil =>
    rw [writeNodes]
    show writeNodes compat f ms = (do let ys ← writeNodes compat f ms; pure ([] ++ ys))
    cases writeNodes compat f ms <;> rfl
  | cons n ns ih =>
    rw [List.cons_append, writeNodes, writeNodes, ih]
    cases n.write compat f with
    | error e => rfl
    | ok x =>
      simp only [py_ok_bind]
      cases writeNodes compat f ns with
      | error e => rfl
      | ok xs =>
        simp only [py_ok_bind, py_pure]
        cases writeNodes compat f ms with
        | error e => rfl
        | ok ys => simp only [py_ok_bind, List.append_assoc]

theorem write_expand (compat : ℕ) (ns : List (Node K)) (h : Spec.OnlyTopRefs ns) :
    writeNodes compat (some true) ns = writeNodes compat (some false) (Spec.expandRefs ns) := by
  induction ns with
  | nil => rw [Spec.expandRefs, writeNodes, writeNodes]
  | cons n ns ih =>
    have ih := ih fun m hm => h m (List.mem_cons_of_mem _ hm)
    rcases h n (List.mem_cons_self ..) with hn | ⟨b, w, ms, rfl, hms⟩
    · have e : Spec.expandRefs (n :: ns) = n :: Spec.expandRefs ns := by
        cases n with
        | ref b w ms => exact absurd rfl ((hn _ .self).1 b w ms)
        | _ => rfl
      rw [e, writeNodes, writeNodes, ih, write_refFree compat n hn (some true) (some false)]
    · rw [Spec.expandRefs, writeNodes_append, writeNodes, ih, Node.write]
      simp only [Option.getD_some, if_true]
      rw [writeNodes_congr compat none (some false) ms fun m hm => write_refFree compat m (hms m hm) _ _]

/-! ## Documents without references -/

theorem containsRef_iff (x : Xml) : Spec.ContainsRef x ↔
    elementType x.tag = "Reference" ∨ ∃ c ∈ x.children, Spec.ContainsRef c := by
  constructor
  · intro h
    cases h with
    | here h => exact .inl ((named_iff _ _).mp h).symm
    | inside h1 h2 => exact .inr ⟨_, h1, h2⟩
  · rintro (h | ⟨c, h1, h2⟩)
    · exact .here ((named_iff _ _).mpr h.symm)
    · exact .inside h1 h2

theorem containsRef_reparse (x : Xml) : Spec.ContainsRef x.reparse ↔ Spec.ContainsRef x := by
  induction x using Xml.ind with
  | h t a s cs ih =>
    rw [containsRef_iff, containsRef_iff, reparse_mk]
    simp only [Xml.tag, Xml.children, List.mem_map, exists_exists_and_eq_and]
    exact or_congr Iff.rfl (exists_congr fun c => and_congr_right fun hc => ih c hc)

theorem foldlM_congr' {σ α : Type} {f g : σ → α → Py σ} (l : List α) (h : ∀ s, ∀ a ∈ l, f s a = g s a)
    (s : σ) : l.foldlM f s = l.foldlM g s := by
  induction l generalizing s with
  | nil => rfl
  | cons a l ih =>
    rw [List.foldlM_cons, List.foldlM_cons, h s a (List.mem_cons_self ..)]
    congr 1
    funext t
    exact ih (fun s b hb => h s b (List.mem_cons_of_mem _ hb)) t

theorem readNode_noRef (A : Arith K) (compat : ℕ) (load load' : String → Py (Option (List (Node K))))
    (x : Xml) : ∀ strict : Bool, ¬ Spec.ContainsRef x →
    readNode A compat load strict x = readNode A compat load' strict x := by
  induction x using Xml.ind with
  | h t a s cs ih =>
    intro strict hx
    rw [containsRef_iff] at hx
    simp only [Xml.tag, Xml.children] at hx
    push Not at hx
    rw [readNode_mk, readNode_mk]
    simp only [Xml.tag, Xml.attrs, Xml.children]
    cases hc : classOf (K := K) (elementType t) with
    | none => rfl
    | some cls =>
      cases cls with
      | leaf k b => rfl
      | reference => exact absurd (classOf_reference_name _ hc) hx.1
      | group =>
        simp only
        rw [readGroup_eq, readGroup_eq]
        congr 1
        apply foldlM_congr'
        intro st c hc
        unfold readGroupStep
        rw [ih c hc false (hx.2 c hc)]
      | _ => rfl

theorem readList_noRef (A : Arith K) (compat : ℕ) (load load' : String → Py (Option (List (Node K))))
    (strict : Bool) (x : Xml) (h : ∀ c ∈ x.children, ¬ Spec.ContainsRef c) :
    readList A compat load strict x = readList A compat load' strict x := by
  unfold readList
  apply foldlM_congr'
  intro l c hc
  unfold readListStep
  rw [readNode_noRef A compat load load' c strict (h c hc)]

/-! ## Written documents -/

/-- Elements without children whose tags are not `Reference`. -/
theorem noRef_leaf (t : String) (a : Dict String) (s : Option String) (h : elementType t ≠ "Reference") :
    ¬ Spec.ContainsRef (.mk t a s []) := by
  rw [containsRef_iff]
  simpa [Xml.tag, Xml.children] using h

theorem noRef_mk (t : String) (a : Dict String) (s : Option String) (cs : List Xml)
    (h : elementType t ≠ "Reference") (hc : ∀ c ∈ cs, ¬ Spec.ContainsRef c) :
    ¬ Spec.ContainsRef (.mk t a s cs) := by
  rw [containsRef_iff]
  simp only [Xml.tag, Xml.children]
  rintro (h' | ⟨c, h1, h2⟩)
  · exact h h'
  · exact hc c h1 h2

theorem noRef_elem (compat : ℕ) (e : Elem K) (x : Xml) (hw : e.write compat = .ok x)
    (h : Spec.InfoElemOk e ∨ (∃ a, e = .array a) ∨ ∃ m, e = .indexMap m) : ¬ Spec.ContainsRef x := by
  rcases h with (⟨t, s, rfl, ht, _⟩ | ⟨ps, rfl, hps⟩) | ⟨a, rfl⟩ | ⟨m, rfl⟩
  · cases hw
    apply noRef_leaf
    simp only [List.mem_cons, List.not_mem_nil, or_false] at ht
    rcases ht with rfl | rfl | rfl | rfl <;> decide
  · cases hw
    apply noRef_mk _ _ _ _ (by decide)
    intro c hc
    obtain ⟨p, hp, rfl⟩ := List.mem_map.mp hc
    apply noRef_leaf
    have := (hps p hp).1
    simp only [List.mem_cons, List.not_mem_nil, or_false] at this
    rcases this with h | h | h <;> rw [h] <;> decide
  · obtain ⟨_, _, _, _, _, _, rfl⟩ := SArr.write_eq hw
    exact noRef_leaf _ _ _ (by decide)
  · have hx : m.write = .ok x := hw
    unfold IndexMap.write at hx
    obtain ⟨ts, _, h2⟩ := py_bind_eq_ok.mp hx
    by_cases hl : m.inputs.length ≠ m.outputs.length
    · rw [if_pos hl] at h2; cases h2
    · rw [if_neg hl] at h2; cases h2; exact noRef_leaf _ _ _ (by decide)

theorem noRef_base (compat : ℕ) (tag : String) (b : Base K) (extra : List Xml) (x : Xml)
    (hw : writeBase compat tag b extra = .ok x) (ht : elementType tag ≠ "Reference")
    (hv : ∀ kv ∈ b.values, elementType kv.1 ≠ "Reference")
    (he : ∀ e ∈ b.elements, Spec.InfoElemOk e ∨ (∃ a, e = .array a) ∨ ∃ m, e = .indexMap m)
    (hx : ∀ c ∈ extra, ¬ Spec.ContainsRef c) : ¬ Spec.ContainsRef x := by
  unfold writeBase at hw
  obtain ⟨xs, h1, h2⟩ := py_bind_eq_ok.mp hw
  cases h2
  apply noRef_mk _ _ _ _ ht
  intro c hc
  simp only [List.mem_append] at hc
  rcases hc with ((hc | hc) | hc) | hc
  · obtain ⟨kv, hkv, rfl⟩ := List.mem_map.mp hc
    exact noRef_leaf _ _ _ (hv kv hkv)
  · obtain ⟨d, _, rfl⟩ := List.mem_map.mp hc
    exact noRef_leaf _ _ _ (by decide)
  · have hf := py_mapM_eq_ok.mp h1
    obtain ⟨e, he', hw'⟩ : ∃ e ∈ b.elements, Elem.write compat e = .ok c := by
      clear h1 hw he hv
      generalize b.elements = es at hf
      induction hf with
      | nil => cases hc
      | @cons e y es ys h _ ih =>
        rcases List.mem_cons.mp hc with rfl | hc
        · exact ⟨e, List.mem_cons_self .., h⟩
        · obtain ⟨e', h1, h2⟩ := ih hc
          exact ⟨e', List.mem_cons_of_mem _ h1, h2⟩
    exact noRef_elem compat e c hw' (he e he')
  · exact hx c hc

theorem optElem_noRef (t : String) (o : Option String) (ht : elementType t ≠ "Reference") :
    ∀ c ∈ optElem t o, ¬ Spec.ContainsRef c := by
  intro c hc
  cases o with
  | none => cases hc
  | some s => rw [List.mem_singleton.mp hc]; exact noRef_leaf _ _ _ ht

theorem noRef_extra (k : Kind K) : ∀ c ∈ k.extra, ¬ Spec.ContainsRef c := by
  intro c hc
  cases k with
  | cdl cc v =>
    simp only [Kind.extra, cdlExtra, List.mem_cons, List.not_mem_nil, or_false] at hc
    rcases hc with rfl | rfl
    · apply noRef_mk _ _ _ _ (by decide)
      intro c hc
      simp only [List.mem_append] at hc
      rcases hc with (hc | hc) | hc
      · exact optElem_noRef _ _ (by decide) c hc
      · exact optElem_noRef _ _ (by decide) c hc
      · exact optElem_noRef _ _ (by decide) c hc
    · exact noRef_mk _ _ _ _ (by decide) (optElem_noRef _ _ (by decide))
  | exposureContrast e ct p =>
    rw [List.mem_singleton.mp hc]; exact noRef_leaf _ _ _ (by decide)
  | gamma ps =>
    obtain ⟨p, _, rfl⟩ := List.mem_map.mp hc
    exact noRef_leaf _ _ _ (by decide)
  | log ps =>
    obtain ⟨p, _, rfl⟩ := List.mem_map.mp hc
    exact noRef_leaf _ _ _ (by decide)
  | _ => cases hc

theorem mem_writeNodes (compat : ℕ) (f : Option Bool) (ns : List (Node K)) (xs : List Xml)
    (h : writeNodes compat f ns = .ok xs) (x : Xml) (hx : x ∈ xs) :
    ∃ n ∈ ns, ∃ ys, n.write compat f = .ok ys ∧ x ∈ ys := by
  induction ns generalizing xs with
  | nil => rw [writeNodes] at h; cases h; cases hx
  | cons n ns ih =>
    rw [writeNodes] at h
    obtain ⟨ys, h1, h2⟩ := py_bind_eq_ok.mp h
    obtain ⟨zs, h3, h4⟩ := py_bind_eq_ok.mp h2
    cases h4
    rcases List.mem_append.mp hx with hx | hx
    · exact ⟨n, List.mem_cons_self .., ys, h1, hx⟩
    · obtain ⟨m, hm, ws, h5, h6⟩ := ih zs h3 hx
      exact ⟨m, List.mem_cons_of_mem _ hm, ws, h5, h6⟩

theorem leafElem_kind (k : Kind K) (b : Base K) (e : Elem K) (h : Spec.LeafElemOk k b e) :
    Spec.InfoElemOk e ∨ (∃ a, e = .array a) ∨ ∃ m, e = .indexMap m := by
  rcases h with ⟨x, rfl, hx⟩ | ⟨_, a, rfl, _⟩ | ⟨_, a, rfl, _⟩ | ⟨_, m, rfl, _⟩
  · exact .inl (.inl ⟨_, _, rfl, by decide, hx⟩)
  · exact .inr (.inl ⟨a, rfl⟩)
  · exact .inr (.inl ⟨a, rfl⟩)
  · exact .inr (.inr ⟨m, rfl⟩)

theorem tag_ne_reference (k : Kind K) : elementType k.tag ≠ "Reference" := by
  cases k with
  | cdl cc v => cases cc <;> (simp only [Kind.tag]; decide)
  | _ => simp only [Kind.tag]; decide

theorem noRef_node (compat : ℕ) (load : String → Py (Option (List (Node K)))) (n : Node K) :
    ∀ f, Spec.Storable compat load n → Spec.RefFree n → ∀ xs, n.write compat f = .ok xs →
      ∀ x ∈ xs, ¬ Spec.ContainsRef x := by
  induction n using Node.ind with
  | hleaf k b =>
    intro f hs _ xs hw x hx
    cases hs with
    | leaf hk ha hv hd he =>
      rw [Node.write] at hw
      obtain ⟨y, h1, h2⟩ := py_bind_eq_ok.mp hw
      cases h2
      rw [List.mem_singleton.mp hx]
      refine noRef_base compat _ b _ y h1 (tag_ne_reference k) ?_
        (fun e hm => leafElem_kind k b e (he e hm)) (noRef_extra k)
      intro kv hkv
      rcases hv with hv | ⟨_, _, hv⟩
      · rw [hv] at hkv; cases hkv
      · have := hv kv hkv
        simp only [List.mem_cons, List.not_mem_nil, or_false] at this
        rcases this with h | h | h | h <;> rw [h] <;> decide
  | hgroup b cs ih =>
    intro f hs hr xs hw x hx
    cases hs with
    | group ha hv hd he hcs =>
      rw [Node.write] at hw
      obtain ⟨ys, h1, h2⟩ := py_bind_eq_ok.mp hw
      obtain ⟨y, h3, h4⟩ := py_bind_eq_ok.mp h2
      cases h4
      rw [List.mem_singleton.mp hx]
      refine noRef_base compat _ b _ y h3 (by decide) (by rw [hv]; intro kv h; cases h)
        (fun e hm => .inl (he e hm)) ?_
      intro c hc
      obtain ⟨m, hm, zs, h5, h6⟩ := mem_writeNodes compat _ cs ys h1 c hc
      exact ih m hm _ (hcs m hm) (refFree_child b cs hr m hm) zs h5 c h6
  | href b w ns _ => intro f _ hr; exact absurd rfl ((hr _ .self).1 b w ns)
  | hmiss b w => intro f _ hr; exact absurd rfl ((hr _ .self).2 b w)

/-! ## Processing -/

theorem outOf_ref_stored (A : Arith K) (compat stride : ℕ) (b : Base K) (w : Bool) (ms : List (Node K))
    (h : ∀ n ∈ ms, n.attr "bypass" = none) (v : List (Flt K)) (hv : Stored A v) :
    (Node.ref b w ms).outOf A compat stride v = ms.foldlM (fun v n => n.outOf A compat stride v) v := by
  rw [outOf_ref, map_stored hv, runOut_plain A compat stride false ms h]

theorem foldlM_expand (A : Arith K) (hA : Casts A) (compat stride : ℕ) (ns : List (Node K))
    (hb : Spec.NoBypass ns) (v : List (Flt K)) (hv : Stored A v) :
    (Spec.expandRefs ns).foldlM (fun v n => n.outOf A compat stride v) v =
      ns.foldlM (fun v n => n.outOf A compat stride v) v := by
  induction ns generalizing v with
  | nil => rfl
  | cons n ns ih =>
    have ih := ih fun m hm => hb m (List.mem_cons_of_mem _ hm)
    have hst : ∀ w, n.outOf A compat stride v = .ok w → Stored A w := by
      intro w hw
      have := runOut_stored A hA compat stride false none [n] v w hv
      rw [runOut_plain A compat stride false [n] (fun m hm => by
        rw [List.mem_singleton.mp hm]; exact hb n (List.mem_cons_self ..) n .self)] at this
      apply this
      rw [List.foldlM_cons, hw]; rfl
    rw [List.foldlM_cons]
    have key : ∀ m, (∀ b w ms, m ≠ Node.ref b w ms) → m = n →
        (Spec.expandRefs (n :: ns)).foldlM (fun v n => n.outOf A compat stride v) v =
        (do let s' ← n.outOf A compat stride v; ns.foldlM (fun v n => n.outOf A compat stride v) s') := by
      rintro m hm rfl
      have e : Spec.expandRefs (m :: ns) = m :: Spec.expandRefs ns := by
        cases m with
        | ref b w ms => exact absurd rfl (hm b w ms)
        | _ => rfl
      rw [e, List.foldlM_cons]
      cases hn : m.outOf A compat stride v with
      | error e => rfl
      | ok w => simp only [py_ok_bind]; exact ih w (hst w hn)
    cases n with
    | leaf k b => exact key _ (by intros; simp) rfl
    | group b cs => exact key _ (by intros; simp) rfl
    | refMissing b w => exact key _ (by intros; simp) rfl
    | ref b w ms =>
      have hms : ∀ n ∈ ms, n.attr "bypass" = none :=
        fun n hn => hb _ (List.mem_cons_self ..) n (.ref hn .self)
      rw [Spec.expandRefs, List.foldlM_append, ← outOf_ref_stored A compat stride b w ms hms v hv]
      cases hn : (Node.ref b w ms).outOf A compat stride v with
      | error e => rfl
      | ok u => simp only [py_ok_bind]; exact ih u (hst u hn)

theorem mem_expand (ns : List (Node K)) (n : Node K) (h : n ∈ Spec.expandRefs ns) :
    n ∈ ns ∨ ∃ b w ms, Node.ref b w ms ∈ ns ∧ n ∈ ms := by
  induction ns with
  | nil => cases h
  | cons m ns ih =>
    have key : Spec.expandRefs (m :: ns) = m :: Spec.expandRefs ns →
        n ∈ m :: ns ∨ ∃ b w ms, Node.ref b w ms ∈ m :: ns ∧ n ∈ ms := by
      intro e
      rw [e] at h
      rcases List.mem_cons.mp h with rfl | h
      · exact .inl (List.mem_cons_self ..)
      · rcases ih h with h | ⟨b, w, ms, h1, h2⟩
        · exact .inl (List.mem_cons_of_mem _ h)
        · exact .inr ⟨b, w, ms, List.mem_cons_of_mem _ h1, h2⟩
    cases m with
    | leaf k b => exact key rfl
    | group b cs => exact key rfl
    | refMissing b w => exact key rfl
    | ref b w ms =>
      rw [Spec.expandRefs] at h
      rcases List.mem_append.mp h with h | h
      · exact .inr ⟨b, w, ms, List.mem_cons_self .., h⟩
      · rcases ih h with h | ⟨b, w, ms, h1, h2⟩
        · exact .inl (List.mem_cons_of_mem _ h)
        · exact .inr ⟨b, w, ms, List.mem_cons_of_mem _ h1, h2⟩

theorem expand_refFree (ns : List (Node K)) (h : Spec.OnlyTopRefs ns) :
    ∀ n ∈ Spec.expandRefs ns, Spec.RefFree n := by
  induction ns with
  | nil => intro n hn; cases hn
  | cons m ns ih =>
    intro n hn
    have ih := ih (fun k hk => h k (List.mem_cons_of_mem _ hk)) n
    rcases h m (List.mem_cons_self ..) with hm | ⟨b, w, ms, rfl, hms⟩
    · have e : Spec.expandRefs (m :: ns) = m :: Spec.expandRefs ns := by
        cases m with
        | ref b w ms => exact absurd rfl ((hm _ .self).1 b w ms)
        | _ => rfl
      rw [e] at hn
      rcases List.mem_cons.mp hn with rfl | hn
      · exact hm
      · exact ih hn
    · rw [Spec.expandRefs] at hn
      rcases List.mem_append.mp hn with hn | hn
      · exact hms n hn
      · exact ih hn

theorem process_expand (A : Arith K) (hA : Casts A) (compat stride : ℕ) (ns : List (Node K))
    (hb : Spec.NoBypass ns) (v : List (Flt K)) :
    processList A compat (Spec.expandRefs ns) v stride = processList A compat ns v stride := by
  rw [processList_eq, processList_eq, runOut_plain, runOut_plain]
  · exact foldlM_expand A hA compat stride ns hb _ (stored_map hA v)
  · exact fun n hn => hb n hn n .self
  · intro n hn
    rcases mem_expand ns n hn with h | ⟨b, w, ms, h1, h2⟩
    · exact hb n h n .self
    · exact hb _ h1 n (.ref h2 .self)

end CLF
