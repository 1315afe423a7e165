import Verif.Lemmas.XmlParse
import Verif.Lemmas.ReadRel

/-! # Written documents -/

set_option linter.unusedSectionVars false

namespace CLF
namespace XmlText

/-! ### Escapes -/

theorem decode_cons (c : Char) (r : Txt) (h : c ≠ '&') : decode none (c :: r) = (decode none r).map (c :: ·) := by
  rw [decode, if_neg h]

theorem decode_text (c : Char) (r : Txt) : decode none (escapeText c ++ r) = (decode none r).map (c :: ·) := by
  unfold escapeText
  split_ifs with h1 h2 h3
  · subst h1; simp [decode, entity]
  · subst h2; simp [decode, entity]
  · subst h3; simp [decode, entity]
  · exact decode_cons c r h1

theorem decode_data (c : Char) (r : Txt) : decode none (escapeData c ++ r) = (decode none r).map (c :: ·) := by
  unfold escapeData
  split_ifs with h1
  · subst h1; simp [decode, entity]
  · exact decode_text c r

theorem decode_flatMap (esc : Char → Txt) (h : ∀ c r, decode none (esc c ++ r) = (decode none r).map (c :: ·)) (t : Txt) :
    decode none (t.flatMap esc) = some t := by
  induction t with
  | nil => rfl
  | cons c t ih => rw [List.flatMap_cons, h, ih]; rfl

theorem escapeText_mem (c d : Char) (h : d ∈ escapeText c) : d ≠ '<' ∧ d ≠ '>' ∧
    (d = c ∨ d ∈ ['&', 'a', 'm', 'p', ';', 'l', 't', 'g']) := by
  unfold escapeText at h
  split_ifs at h with h1 h2 h3
  · simp at h; rcases h with rfl | rfl | rfl | rfl | rfl <;> simp
  · simp at h; rcases h with rfl | rfl | rfl | rfl <;> simp
  · simp at h; rcases h with rfl | rfl | rfl | rfl <;> simp
  · simp at h; subst h; exact ⟨h2, h3, .inl rfl⟩

theorem escapeData_mem (c d : Char) (h : d ∈ escapeData c) : d ≠ '<' ∧ d ≠ '>' ∧ d ≠ '"' ∧
    (d = c ∨ d ∈ ['&', 'a', 'm', 'p', ';', 'l', 't', 'g', 'q', 'u', 'o']) := by
  unfold escapeData at h
  split_ifs at h with h1
  · simp at h; rcases h with rfl | rfl | rfl | rfl | rfl | rfl <;> simp
  · obtain ⟨a1, a2, a3⟩ := escapeText_mem c d h
    refine ⟨a1, a2, ?_, ?_⟩
    · rintro rfl
      rcases a3 with a3 | a3
      · exact h1 a3.symm
      · simp at a3
    · rcases a3 with a3 | a3
      · exact .inl a3
      · right; simp only [List.mem_cons, List.not_mem_nil, or_false] at a3 ⊢; tauto

theorem escapeAttr_mem (c d : Char) (h : d ∈ escapeAttr c) : d ≠ '<' ∧ d ≠ '>' ∧ d ≠ '"' ∧ d ≠ '\n' ∧
    (d = c ∨ d ∈ ['&', 'a', 'm', 'p', ';', 'l', 't', 'g', 'q', 'u', 'o', '#', '1', '0']) := by
  unfold escapeAttr at h
  split_ifs at h with h1 h2
  · simp at h; rcases h with rfl | rfl | rfl | rfl | rfl | rfl <;> simp
  · simp at h; rcases h with rfl | rfl | rfl | rfl | rfl <;> simp
  · obtain ⟨a1, a2, a3⟩ := escapeText_mem c d h
    refine ⟨a1, a2, ?_, ?_, ?_⟩
    · rintro rfl
      rcases a3 with a3 | a3
      · exact h1 a3.symm
      · simp at a3
    · rintro rfl
      rcases a3 with a3 | a3
      · exact h2 a3.symm
      · simp at a3
    · rcases a3 with a3 | a3
      · exact .inl a3
      · right; simp only [List.mem_cons, List.not_mem_nil, or_false] at a3 ⊢; tauto

theorem escapeText_ne (c : Char) : escapeText c ≠ [] := by
  unfold escapeText; split_ifs <;> simp

theorem escapeData_ne (c : Char) : escapeData c ≠ [] := by
  unfold escapeData; split_ifs <;> simp [escapeText_ne]

theorem flatMap_ne (esc : Char → Txt) (h : ∀ c, esc c ≠ []) (t : Txt) (ht : t ≠ []) : t.flatMap esc ≠ [] := by
  cases t with
  | nil => exact absurd rfl ht
  | cons c t => simp [h c]

theorem normEnds_escape (t : Txt) : normEnds (t.flatMap escapeText) = (normEnds t).flatMap escapeText := by
  induction t using normEnds.induct with
  | case1 => rfl
  | case2 r ih =>
    have e1 : escapeText '\r' = ['\r'] := by decide
    have e2 : escapeText '\n' = ['\n'] := by decide
    rw [normEnds_crlf, List.flatMap_cons, List.flatMap_cons, List.flatMap_cons, e1, e2, ← ih]
    exact normEnds_crlf _
  | case3 r h ih =>
    have e1 : escapeText '\r' = ['\r'] := by decide
    have e2 : escapeText '\n' = ['\n'] := by decide
    have hr : r.head? ≠ some '\n' := by
      intro e
      cases r with
      | nil => cases e
      | cons x r => simp at e; exact h r (by rw [e])
    have hr' : (r.flatMap escapeText).head? ≠ some '\n' := by
      cases r with
      | nil => simp
      | cons x r =>
        have hx : x ≠ '\n' := by simpa using hr
        rw [List.flatMap_cons]
        unfold escapeText
        split_ifs <;> simp [hx]
    rw [normEnds_cr r hr, List.flatMap_cons, List.flatMap_cons, e1, e2, ← ih]
    exact normEnds_cr _ hr'
  | case4 c r h h' ih =>
    have hc : c ≠ '\r' := fun e => h' e
    rw [normEnds_cons c r hc, List.flatMap_cons, List.flatMap_cons, ← ih]
    refine normEnds_pass _ _ ?_
    intro hm
    rcases (escapeText_mem c '\r' hm).2.2 with e | e
    · exact hc e.symm
    · simp at e

/-- Tabs and carriage returns become spaces. -/
def spaced1 (c : Char) : Char := if c = '\t' ∨ c = '\r' then ' ' else c

theorem normEnds_noLf (u : Txt) (h : '\n' ∉ u) : normEnds u = u.map fun c => if c = '\r' then '\n' else c := by
  induction u with
  | nil => rfl
  | cons c u ih =>
    have h1 : c ≠ '\n' := fun e => h (by rw [e]; exact List.mem_cons_self ..)
    have h2 : '\n' ∉ u := fun e => h (List.mem_cons_of_mem _ e)
    by_cases hc : c = '\r'
    · subst hc
      rw [normEnds_cr, ih h2]
      · simp
      · cases u with
        | nil => simp
        | cons d u => simp; rintro rfl; exact h2 (List.mem_cons_self ..)
    · rw [normEnds_cons c u hc, ih h2]; simp [hc]

theorem decode_attr1_cons (c : Char) (R : Txt) :
    decode none ((escapeAttr c).map blank ++ R) = (decode none R).map (spaced1 c :: ·) := by
  unfold escapeAttr escapeText
  split_ifs with h1 h2 h3 h4 h5
  · subst h1; simp [decode, entity, blank, xmlSpace, spaced1]
  · subst h2
    have : entity ['#', '1', '0'] = some '\n' := by decide
    simp [decode, this, blank, xmlSpace, spaced1]
  · subst h3; simp [decode, entity, blank, xmlSpace, spaced1]
  · subst h4; simp [decode, entity, blank, xmlSpace, spaced1]
  · subst h5; simp [decode, entity, blank, xmlSpace, spaced1]
  · have hb : blank c ≠ '&' := by
      unfold blank; split
      · decide
      · exact h3
    rw [List.map_singleton, List.singleton_append, decode_cons _ _ hb]
    have : blank c = spaced1 c := by
      unfold blank spaced1 xmlSpace
      by_cases a1 : c = ' '
      · subst a1; decide
      · simp [a1, h2]
    rw [this]

theorem decode_attr1 (v : Txt) :
    decode none ((v.flatMap escapeAttr).map blank) = some (v.map spaced1) := by
  induction v with
  | nil => rfl
  | cons c v ih =>
    rw [List.flatMap_cons, List.map_append, decode_attr1_cons, ih]; rfl

/-- `ElementTree`'s texts, after line ends. -/
theorem enc_text1 : EncText (normEnds ∘ fun t => t.flatMap escapeText) normEnds := by
  intro t ht
  simp only [Function.comp_apply, normEnds_escape]
  have h0 := normEnds_ne_nil t ht
  refine ⟨flatMap_ne _ escapeText_ne _ h0, ?_, ?_, decode_flatMap _ decode_text _, h0⟩
  · intro hm
    obtain ⟨c, _, hc⟩ := List.mem_flatMap.mp hm
    exact (escapeText_mem c _ hc).1 rfl
  · intro hm
    obtain ⟨c, _, hc⟩ := List.mem_flatMap.mp hm
    exact (escapeText_mem c _ hc).2.1 rfl

/-- `ElementTree`'s values, after line ends. -/
theorem enc_attr1 : EncAttr (normEnds ∘ fun v => v.flatMap escapeAttr) fun v => v.map spaced1 := by
  intro v
  have hn : '\n' ∉ v.flatMap escapeAttr := by
    intro hm
    obtain ⟨c, _, hc⟩ := List.mem_flatMap.mp hm
    exact (escapeAttr_mem c _ hc).2.2.2.1 rfl
  have hmem : ∀ d ∈ normEnds (v.flatMap escapeAttr), d ≠ '"' ∧ d ≠ '<' := by
    intro d hd
    rcases mem_normEnds _ d hd with h | h
    · obtain ⟨c, _, hc⟩ := List.mem_flatMap.mp h
      exact ⟨(escapeAttr_mem c _ hc).2.2.1, (escapeAttr_mem c _ hc).1⟩
    · subst h; decide
  refine ⟨fun h => (hmem _ h).1 rfl, fun h => (hmem _ h).2 rfl, ?_⟩
  unfold attrValue
  simp only [Function.comp_apply]
  rw [if_neg fun h => (hmem _ h).2 rfl]
  rw [normEnds_noLf _ hn, List.map_map, ← decode_attr1]
  congr 1
  refine List.map_congr_left fun c _ => ?_
  by_cases hc : c = '\r'
  · subst hc; decide
  · simp [hc]

/-- `minidom`'s texts. -/
theorem enc_text2 : EncText (fun t => t.flatMap escapeData) id := by
  intro t ht
  refine ⟨flatMap_ne _ escapeData_ne _ ht, ?_, ?_, decode_flatMap _ decode_data _, ht⟩
  · intro hm
    obtain ⟨c, _, hc⟩ := List.mem_flatMap.mp hm
    exact (escapeData_mem c _ hc).1 rfl
  · intro hm
    obtain ⟨c, _, hc⟩ := List.mem_flatMap.mp hm
    exact (escapeData_mem c _ hc).2.1 rfl

theorem blank_escapeData (c : Char) : (escapeData c).map blank = escapeData (blank c) := by
  unfold escapeData escapeText
  by_cases hs : xmlSpace c = true
  · have hb : blank c = ' ' := by unfold blank; rw [if_pos hs]
    rw [hb]
    simp only [xmlSpace, Bool.or_eq_true, decide_eq_true_eq] at hs
    rcases hs with ((rfl | rfl) | rfl) | rfl <;> decide
  · have hb : blank c = c := by unfold blank; rw [if_neg hs]
    rw [hb]
    split_ifs
    · rfl
    · rfl
    · rfl
    · rfl
    · simp [hb]

/-- `minidom`'s values. -/
theorem enc_attr2 : EncAttr (fun v => v.flatMap escapeData) fun v => v.map blank := by
  intro v
  have hmem : ∀ d ∈ v.flatMap escapeData, d ≠ '"' ∧ d ≠ '<' := by
    intro d hd
    obtain ⟨c, _, hc⟩ := List.mem_flatMap.mp hd
    exact ⟨(escapeData_mem c _ hc).2.2.1, (escapeData_mem c _ hc).1⟩
  refine ⟨fun h => (hmem _ h).1 rfl, fun h => (hmem _ h).2 rfl, ?_⟩
  unfold attrValue
  rw [if_neg fun h => (hmem _ h).2 rfl]
  rw [← decode_flatMap escapeData decode_data (v.map blank)]
  congr 1
  rw [List.map_flatMap, List.flatMap_map]
  simp only [blank_escapeData]

/-! ### The document of an element -/

mutual
/-- An element as `minidom` sees it. -/
def domOf : Xml → Dom
  | .mk tag as text cs => .elem tag.toList (sortAttrs (attrTxt as))
      ((if (text.getD "").toList = [] then [] else [.text (text.getD "").toList]) ++ domsOf cs)
/-- See `domOf`. -/
def domsOf : List Xml → List Dom
  | [] => []
  | x :: xs => domOf x :: domsOf xs
end

theorem domsOf_eq (xs : List Xml) : domsOf xs = xs.map domOf := by
  induction xs with
  | nil => rfl
  | cons x xs ih => rw [domsOf, ih]; rfl

theorem domOf_isText (x : Xml) : isText (domOf x) = false := by cases x; rfl

theorem attrsText_eq (esc : Char → Txt) (as : List (Txt × Txt)) :
    attrsText esc as = renderAttrs (mapAttrs (fun v => v.flatMap esc) as) := by
  unfold attrsText renderAttrs mapAttrs
  rw [List.flatMap_map]

theorem treeTexts_eq (xs : List Xml) : treeTexts xs = xs.flatMap treeText := by
  induction xs with
  | nil => rfl
  | cons x xs ih => rw [treeTexts, ih]; rfl

theorem treeText_render (x : Xml) : treeText x =
    render [' '] (mapDom (fun t => t.flatMap escapeText) (fun v => v.flatMap escapeAttr) (domOf x)) := by
  induction x using Xml.ind with
  | h tag as text cs ih =>
    rw [treeText, domOf, mapDom, render, attrsText_eq, mapDoms_isEmpty]
    congr 1
    have hcs : treeTexts cs = renders [' '] (mapDoms (fun t => t.flatMap escapeText) (fun v => v.flatMap escapeAttr)
        (domsOf cs)) := by
      rw [treeTexts_eq, renders_eq, mapDoms_eq, domsOf_eq, List.map_map, List.flatMap_map]
      induction cs with
      | nil => rfl
      | cons c cs ih2 =>
        rw [List.flatMap_cons, List.flatMap_cons, ih c (List.mem_cons_self ..),
          ih2 fun d hd => ih d (List.mem_cons_of_mem _ hd)]
        rfl
    by_cases ht : (text.getD "").toList = []
    · simp only [ht, true_and, List.nil_append, if_true, List.flatMap_nil, domsOf_eq, List.isEmpty_map]
      cases hc : cs.isEmpty
      · simp [hcs, domsOf_eq]
      · simp
    · simp only [ht, false_and, if_false, List.singleton_append, List.isEmpty_cons, Bool.false_eq_true]
      rw [hcs]
      simp [mapDoms, renders, mapDom, render]

theorem sortAttrs_perm (as : List (Txt × Txt)) : (sortAttrs as).Perm as := List.perm_insertionSort _ as

/-- An element whose names the parser takes, with different attributes. -/
inductive Writable : Xml → Prop
  | mk {tag : String} {as : Dict String} {text : Option String} {cs : List Xml} : ValidName tag.toList →
      (∀ kv ∈ as, ValidName kv.1.toList) → (as.map Prod.fst).Nodup → (∀ c ∈ cs, Writable c) →
      Writable (.mk tag as text cs)

theorem good_domOf (x : Xml) (h : Writable x) : Good (domOf x) := by
  induction x using Xml.ind with
  | h tag as text cs ih =>
    cases h with
    | mk h1 h2 h3 h4 =>
      rw [domOf]
      refine ⟨h1, ?_, ?_, ?_, ?_⟩
      · intro kv hkv
        have := (sortAttrs_perm _).mem_iff.mp hkv
        obtain ⟨kv', h, rfl⟩ := List.mem_map.mp this
        exact h2 kv' h
      · have hp := (sortAttrs_perm (attrTxt as)).map Prod.fst
        rw [hp.nodup_iff]
        have : (attrTxt as).map Prod.fst = (as.map Prod.fst).map String.toList := by
          simp [attrTxt, Function.comp_def]
        rw [this]
        exact h3.map fun a b e => String.toList_inj.mp e
      · have key : ∀ ds : List Dom, (∀ d ∈ ds, isText d = false) → apart ds = true := by
          intro ds hds
          induction ds with
          | nil => rfl
          | cons d ds ih =>
            cases ds with
            | nil => rfl
            | cons e ds =>
              simp only [apart, hds d (List.mem_cons_self ..), Bool.false_and, Bool.not_false, Bool.true_and]
              exact ih fun x hx => hds x (List.mem_cons_of_mem _ hx)
        have hds : ∀ d ∈ domsOf cs, isText d = false := by
          rw [domsOf_eq]
          intro d hd
          obtain ⟨c, _, rfl⟩ := List.mem_map.mp hd
          exact domOf_isText c
        split
        · exact key _ hds
        · rw [List.singleton_append]
          cases hc : domsOf cs with
          | nil => rfl
          | cons d ds =>
            rw [hc] at hds
            simp only [apart, hds d (List.mem_cons_self ..), Bool.and_false, Bool.not_false, Bool.true_and]
            exact key _ hds
      · rw [goods_iff]
        intro d hd
        rcases List.mem_append.mp hd with hd | hd
        · split at hd
          · cases hd
          · rename_i hne
            rw [List.mem_singleton.mp hd]; exact hne
        · rw [domsOf_eq] at hd
          obtain ⟨c, hc, rfl⟩ := List.mem_map.mp hd
          exact ih c hc (h4 c hc)

/-- All characters of a document are of a kind. -/
inductive XmlChars (P : Char → Prop) : Xml → Prop
  | mk {tag : String} {as : Dict String} {text : Option String} {cs : List Xml} : (∀ c ∈ tag.toList, P c) →
      (∀ kv ∈ as, (∀ c ∈ kv.1.toList, P c) ∧ ∀ c ∈ kv.2.toList, P c) → (∀ s, text = some s → ∀ c ∈ s.toList, P c) →
      (∀ c ∈ cs, XmlChars P c) → XmlChars P (.mk tag as text cs)

theorem charsIn_domOf (P : Char → Prop) (x : Xml) (h : XmlChars P x) : CharsIn P (domOf x) := by
  induction x using Xml.ind with
  | h tag as text cs ih =>
    cases h with
    | mk h1 h2 h3 h4 =>
      rw [domOf]
      refine .elem h1 ?_ ?_
      · intro kv hkv
        have := (sortAttrs_perm _).mem_iff.mp hkv
        obtain ⟨kv', h, rfl⟩ := List.mem_map.mp this
        exact h2 kv' h
      · intro d hd
        rcases List.mem_append.mp hd with hd | hd
        · split at hd
          · cases hd
          · rw [List.mem_singleton.mp hd]
            cases text with
            | none => exact .text (by simp)
            | some s => exact .text (h3 s rfl)
        · rw [domsOf_eq] at hd
          obtain ⟨c, hc, rfl⟩ := List.mem_map.mp hd
          exact ih c hc (h4 c hc)

theorem xmlChar_blank (c : Char) (h : xmlChar c = true) : xmlChar (blank c) = true := by
  unfold blank; split
  · decide
  · exact h

theorem xmlChar_marks : ∀ c ∈ ['&', 'a', 'm', 'p', ';', 'l', 't', 'g', 'q', 'u', 'o', '#', '1', '0'],
    xmlChar c = true := by decide

/-- `minidom` reads what `ElementTree` writes. -/
theorem parse_tostring (x : Xml) (hw : Writable x) (hc : XmlChars (fun c => xmlChar c = true) x) :
    parseDom (tostring x) = some (mapDom normEnds (fun v => v.map spaced1) (domOf x)) := by
  have hg := good_domOf x hw
  set d := domOf x with hd
  set E := mapDom (fun t => t.flatMap escapeText) (fun v => v.flatMap escapeAttr) d with hE
  have hgE : Good E := good_map _ _ (fun t ht => flatMap_ne _ escapeText_ne t ht) d hg
  have hs : normEnds (tostring x) = "<?xml version='1.0' encoding='UTF-8'?>\n".toList ++
      render [' '] (mapDom (normEnds ∘ fun t => t.flatMap escapeText) (normEnds ∘ fun v => v.flatMap escapeAttr) d) ++ [] := by
    unfold tostring
    rw [normEnds_pass _ _ (by decide), treeText_render, ← hd, ← hE, ← List.append_nil (render [' '] E),
      normEnds_elem [' '] (by decide) E hgE (by rw [hE, mapDom_isText]; exact domOf_isText x), hE, mapDom_comp]
    simp [normEnds]
  refine parse_render _ [] [' '] (by decide) _ _ _ _ enc_text1 enc_attr1 d hg (domOf_isText x) ?_ (by decide) (.inl rfl) _ hs ?_
  · intro r n
    have e1 : lexTok ("<?xml version='1.0' encoding='UTF-8'?>\n".toList ++ '<' :: r) = some (none, '\n' :: '<' :: r) := rfl
    have e2 : lexTok ('\n' :: '<' :: r) = some (some (.chars ['\n']), '<' :: r) :=
      lexTok_chars ['\n'] ['\n'] r (by simp) (by decide) (by decide) (by decide)
    rw [lex_cons (n + 1) _ (by simp) _ _ e1, lex_cons n _ (by simp) _ _ e2]
    cases lex n ('<' :: r) <;> rfl
  · rw [hs, List.append_nil, List.all_eq_true]
    intro c hcm
    rcases List.mem_append.mp hcm with h | h
    · have : ∀ c ∈ "<?xml version='1.0' encoding='UTF-8'?>\n".toList, xmlChar c = true := by decide
      exact this c h
    · refine render_chars (fun c => xmlChar c = true) [' '] (by decide) (by decide) _ ?_ c h
      refine charsIn_map (fun c => xmlChar c = true) (fun c => xmlChar c = true) (fun _ h => h) _ _ ?_ ?_ d
        (charsIn_domOf _ x hc)
      · intro t ht c hcm
        rcases mem_normEnds _ c hcm with h | rfl
        · obtain ⟨e, he, hm⟩ := List.mem_flatMap.mp h
          rcases (escapeText_mem e c hm).2.2 with rfl | h
          · exact ht _ he
          · exact xmlChar_marks c (by simp only [List.mem_cons, List.not_mem_nil, or_false] at h ⊢; tauto)
        · decide
      · intro t ht c hcm
        rcases mem_normEnds _ c hcm with h | rfl
        · obtain ⟨e, he, hm⟩ := List.mem_flatMap.mp h
          rcases (escapeAttr_mem e c hm).2.2.2.2 with rfl | h
          · exact ht _ he
          · exact xmlChar_marks c (by simp only [List.mem_cons, List.not_mem_nil, or_false] at h ⊢; tauto)
        · decide

end XmlText
end CLF
