import Verif.Lemmas.XmlTidy

/-! # The characters of written documents -/

set_option linter.unusedSectionVars false

namespace CLF.XmlText

theorem mem_normEnds_of (t : Txt) (c : Char) (h : c ∈ t) (hc : c ≠ '\r') : c ∈ normEnds t := by
  induction t using normEnds.induct with
  | case1 => cases h
  | case2 r ih =>
    rw [normEnds_crlf]
    rcases List.mem_cons.mp h with h | h
    · exact absurd h hc
    · rcases List.mem_cons.mp h with h | h
      · exact List.mem_cons.mpr (.inl h)
      · exact List.mem_cons_of_mem _ (ih h)
  | case3 r g ih =>
    have hr : r.head? ≠ some '\n' := by
      intro e
      cases r with
      | nil => cases e
      | cons x r => simp at e; exact g r (by rw [e])
    rw [normEnds_cr r hr]
    rcases List.mem_cons.mp h with h | h
    · exact absurd h hc
    · exact List.mem_cons_of_mem _ (ih h)
  | case4 c' r g g' ih =>
    have : c' ≠ '\r' := fun e => g' e
    rw [normEnds_cons _ _ this]
    rcases List.mem_cons.mp h with h | h
    · exact List.mem_cons.mpr (.inl h)
    · exact List.mem_cons_of_mem _ (ih h)

theorem escapeText_self (P : Char → Prop) (hP : P '&' ∧ P '<' ∧ P '>') (c : Char) (h : ∀ d ∈ escapeText c, P d) : P c := by
  unfold escapeText at h
  split at h
  · rename_i e; rw [e]; exact hP.1
  · split at h
    · rename_i e; rw [e]; exact hP.2.1
    · split at h
      · rename_i e; rw [e]; exact hP.2.2
      · exact h c (by simp)

theorem escapeData_self (P : Char → Prop) (hP : P '&' ∧ P '<' ∧ P '>') (hq : P '"') (c : Char)
    (h : ∀ d ∈ escapeData c, P d) : P c := by
  unfold escapeData at h
  split at h
  · rename_i e; rw [e]; exact hq
  · exact escapeText_self P hP c h

theorem escapeAttr_self (P : Char → Prop) (hP : P '&' ∧ P '<' ∧ P '>') (hq : P '"' ∧ P '\n') (c : Char)
    (h : ∀ d ∈ escapeAttr c, P d) : P c := by
  unfold escapeAttr at h
  split at h
  · rename_i e; rw [e]; exact hq.1
  · split at h
    · rename_i e; rw [e]; exact hq.2
    · exact escapeText_self P hP c h

theorem flatMap_self (P : Char → Prop) (esc : Char → Txt) (hs : ∀ c, (∀ d ∈ esc c, P d) → P c) (t : Txt)
    (h : ∀ d ∈ t.flatMap esc, P d) : ∀ c ∈ t, P c := by
  intro c hc
  exact hs c fun d hd => h d (List.mem_flatMap.mpr ⟨c, hc, hd⟩)

theorem attrsText_self (P : Char → Prop) (esc : Char → Txt) (hs : ∀ c, (∀ d ∈ esc c, P d) → P c)
    (as : List (Txt × Txt)) (h : ∀ d ∈ attrsText esc (sortAttrs as), P d) :
    ∀ kv ∈ as, (∀ c ∈ kv.1, P c) ∧ ∀ c ∈ kv.2, P c := by
  intro kv hkv
  have hm := (sortAttrs_perm as).mem_iff.mpr hkv
  have h' : ∀ d ∈ ' ' :: kv.1 ++ '=' :: '"' :: kv.2.flatMap esc ++ ['"'], P d :=
    fun d hd => h d (List.mem_flatMap.mpr ⟨kv, hm, hd⟩)
  refine ⟨fun c hc => h' c (by simp [hc]), flatMap_self P esc hs _ fun d hd => h' d ?_⟩
  simp only [List.cons_append, List.mem_cons, List.mem_append]
  exact .inr (.inl (.inr (.inr (.inr hd))))

/-- If the text of a document has only characters of a kind, then the document has. -/
theorem pretty_self (P : Char → Prop) (hP : P '&' ∧ P '<' ∧ P '>') (hq : P '"') (d : Dom) :
    ∀ n, (∀ c ∈ pretty n d, P c) → CharsIn P d := by
  have hs := escapeData_self P hP hq
  induction d using Dom.ind with
  | ht t =>
    intro n h
    rw [pretty] at h
    exact .text fun c hc => flatMap_self P escapeData hs _ h c (by simp [hc])
  | he tag as cs ih =>
    intro n h
    have hhead : ∀ (h : ∀ c ∈ List.replicate n '\t' ++ '<' :: tag ++ attrsText escapeData (sortAttrs as), P c),
        (∀ c ∈ tag, P c) ∧ ∀ kv ∈ as, (∀ c ∈ kv.1, P c) ∧ ∀ c ∈ kv.2, P c := fun h =>
      ⟨fun c hc => h c (by simp [hc]), attrsText_self P escapeData hs as fun d hd => h d (by simp [hd])⟩
    by_cases h0 : cs = []
    · subst h0
      rw [pretty] at h
      obtain ⟨h1, h2⟩ := hhead fun c hc => h c (List.mem_append_left _ hc)
      exact .elem h1 h2 (by simp)
    by_cases h1 : ∃ t, cs = [.text t]
    · obtain ⟨t, rfl⟩ := h1
      rw [pretty] at h
      obtain ⟨h1, h2⟩ := hhead fun c hc => h c (List.mem_append_left _ hc)
      refine .elem h1 h2 ?_
      intro d hd
      rw [List.mem_singleton.mp hd]
      exact .text (flatMap_self P escapeData hs _ fun c hc => h c (by
        refine List.mem_append_right _ ?_
        simp only [List.cons_append, List.mem_cons, List.mem_append]
        exact .inr (.inl (.inl hc))))
    · rw [pretty] at h
      · obtain ⟨g1, g2⟩ := hhead fun c hc => h c (List.mem_append_left _ hc)
        refine .elem g1 g2 ?_
        intro d hd
        refine ih d hd (n + 1) fun c hc => h c (List.mem_append_right _ ?_)
        have : c ∈ prettyAll (n + 1) cs := by rw [prettyAll_eq]; exact List.mem_flatMap.mpr ⟨d, hd, hc⟩
        simp only [List.cons_append, List.mem_cons, List.mem_append]
        exact .inr (.inr (.inl (.inl (.inl this))))
      · exact h0
      · exact fun t e => h1 ⟨t, e⟩

theorem treeText_self (P : Char → Prop) (hP : P '&' ∧ P '<' ∧ P '>') (hq : P '"' ∧ P '\n') (x : Xml)
    (h : ∀ c ∈ treeText x, P c) : Spec.Everywhere P x := by
  induction x using Xml.ind with
  | h tag as text cs ih =>
    rw [treeText] at h
    have hA := attrsText_self P escapeAttr (escapeAttr_self P hP hq) (attrTxt as) fun d hd => h d (by simp [hd])
    have h' := fun c hc => h c (List.mem_append_right _ hc)
    refine .mk (fun c hc => h c (by simp [hc])) ?_ ?_ ?_
    · intro kv hkv
      exact hA (kv.1.toList, kv.2.toList) (List.mem_map.mpr ⟨kv, hkv, rfl⟩)
    · by_cases ht : (text.getD "").toList = []
      · rw [ht]; simp
      · rw [if_neg (by tauto)] at h'
        exact flatMap_self P escapeText (escapeText_self P hP) _ fun c hc => h' c (by
          simp only [List.cons_append, List.mem_cons, List.mem_append]
          exact .inr (.inl (.inl (.inl hc))))
    · intro d hd
      have hc : ¬ ((text.getD "").toList = [] ∧ cs.isEmpty = true) := by
        rintro ⟨_, h⟩
        rw [List.isEmpty_iff] at h
        rw [h] at hd; cases hd
      rw [if_neg hc] at h'
      refine ih d hd fun c hc => h' c ?_
      have : c ∈ treeTexts cs := by rw [treeTexts_eq]; exact List.mem_flatMap.mpr ⟨d, hd, hc⟩
      simp only [List.cons_append, List.mem_cons, List.mem_append]
      exact .inr (.inl (.inl (.inr this)))

/-- A character XML does not allow makes the parser fail. -/
theorem prettify_refuses (x : Xml) (h : ¬ Spec.Everywhere Spec.Allowed x) : xmlPrettify x = .error .parseError := by
  have hd : parseDom (tostring x) = none := by
    unfold parseDom
    simp only
    rw [if_neg]
    intro hall
    rw [List.all_eq_true] at hall
    refine h (treeText_self _ ?_ ?_ x ?_)
    · simp only [← allowed_iff]; decide
    · simp only [← allowed_iff]; decide
    · intro c hc
      by_cases hr : c = '\r'
      · rw [hr]; exact .inr (.inr (.inl rfl))
      · exact (allowed_iff c).mp (hall c (mem_normEnds_of _ c (List.mem_append_right _ hc) hr))
  unfold xmlPrettify
  rw [hd]

theorem domOf_self (P : Char → Prop) (hP : P '\r' ∧ P '\t') (x : Xml)
    (h : CharsIn P (mapDom normEnds (fun v => v.map spaced1) (domOf x))) : Spec.Everywhere P x := by
  induction x using Xml.ind with
  | h tag as text cs ih =>
    rw [domOf, mapDom] at h
    cases h with
    | elem h1 h2 h3 =>
      rw [mapDoms_eq] at h3
      refine .mk h1 ?_ ?_ ?_
      · intro kv hkv
        have hm : (kv.1.toList, kv.2.toList.map spaced1) ∈
            mapAttrs (fun v => v.map spaced1) (sortAttrs (attrTxt as)) :=
          List.mem_map.mpr ⟨(kv.1.toList, kv.2.toList), (sortAttrs_perm _).mem_iff.mpr (List.mem_map.mpr ⟨kv, hkv, rfl⟩), rfl⟩
        obtain ⟨g1, g2⟩ := h2 _ hm
        refine ⟨g1, fun c hc => ?_⟩
        have := g2 _ (List.mem_map.mpr ⟨c, hc, rfl⟩)
        unfold spaced1 at this
        split at this
        · rename_i e
          rcases e with rfl | rfl
          exacts [hP.2, hP.1]
        · exact this
      · intro c hc
        by_cases hr : c = '\r'
        · rw [hr]; exact hP.1
        have ht : (text.getD "").toList ≠ [] := List.ne_nil_of_mem hc
        have := h3 (.text (normEnds (text.getD "").toList)) (by
          rw [if_neg ht]; simp [mapDom])
        cases this with
        | text g => exact g c (mem_normEnds_of _ c hc hr)
      · intro d hd
        refine ih d hd (h3 _ (List.mem_map.mpr ⟨domOf d, List.mem_append_right _ ?_, rfl⟩))
        rw [domsOf_eq]; exact List.mem_map.mpr ⟨d, hd, rfl⟩

theorem prettify_ascii (x : Xml) (hn : Spec.WellNamed x) (hc : Spec.Everywhere Spec.Allowed x) (t : Txt)
    (ht : xmlPrettify x = .ok t) : ascii t = true ↔ Spec.Everywhere (fun c => c.toNat < 128) x := by
  rw [prettify_text x hn hc] at ht
  injection ht with ht
  subst ht
  unfold ascii
  rw [List.all_eq_true]
  simp only [decide_eq_true_eq]
  constructor
  · intro h
    refine domOf_self _ (by decide) x (pretty_self _ (by decide) (by decide) _ 0 fun c hc => h c ?_)
    exact List.mem_append_right _ hc
  · intro h c hcm
    rcases List.mem_append.mp hcm with hcm | hcm
    · have : ∀ c ∈ "<?xml version=\"1.0\" ?>\n".toList, c.toNat < 128 := by decide
      exact this c hcm
    · have hu : Unmixed (mapDom normEnds (fun v => v.map spaced1) (domOf x)) := unmixed_map _ _ _ (wellNamed_unmixed x hn)
      rw [pretty_render _ hu 0] at hcm
      have h1 : CharsIn (fun c => c.toNat < 128) (mapDom normEnds (fun v => v.map spaced1) (domOf x)) := by
        refine charsIn_map (fun c => c.toNat < 128) _ (fun _ h => h) _ _ ?_ ?_ _
          (charsIn_domOf _ x (everywhere_xmlChars _ x h))
        · intro t ht c hc
          rcases mem_normEnds _ c hc with h | rfl
          · exact ht c h
          · decide
        · intro t ht c hc
          obtain ⟨e, he, rfl⟩ := List.mem_map.mp hc
          unfold spaced1
          split
          · decide
          · exact ht e he
      have h2 := charsIn_indent _ (by decide) _ h1 hu 0
      have key : ∀ t : Txt, (∀ c ∈ t, c.toNat < 128) → ∀ c ∈ t.flatMap escapeData, c.toNat < 128 := by
        intro t ht c hcm
        obtain ⟨e, he, hm⟩ := List.mem_flatMap.mp hcm
        rcases (escapeData_mem e c hm).2.2.2 with rfl | h
        · exact ht _ he
        · have : ∀ c ∈ ['&', 'a', 'm', 'p', ';', 'l', 't', 'g', 'q', 'u', 'o'], c.toNat < 128 := by decide
          exact this c h
      have h3 := render_chars _ [] (by simp) (by decide) _ (charsIn_map _ _ (fun _ h => h) _ _ key key _ h2)
      rcases List.mem_append.mp hcm with hcm | hcm
      · exact h3 c (by simpa [tabs] using hcm)
      · rw [List.mem_singleton.mp hcm]; decide

/-- A document with plain names is written exactly if all its characters may stand in XML. -/
theorem prettify_iff (x : Xml) (hn : Spec.WellNamed x) :
    (∃ t, xmlPrettify x = .ok t) ↔ Spec.Everywhere Spec.Allowed x := by
  constructor
  · rintro ⟨t, ht⟩
    by_contra h
    rw [prettify_refuses x h] at ht
    cases ht
  · intro h
    obtain ⟨t, _, ht, _⟩ := prettify_parse x hn h
    exact ⟨t, ht⟩

end CLF.XmlText
