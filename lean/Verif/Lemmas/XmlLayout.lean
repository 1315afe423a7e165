import Verif.Lemmas.XmlWrite

/-! # Indented documents -/

set_option linter.unusedSectionVars false

namespace CLF
namespace XmlText

/-- `n` tabs. -/
abbrev tabs (n : ℕ) : Txt := List.replicate n '\t'

mutual
/-- A document with the white space that `minidom` adds. -/
def indent (n : ℕ) : Dom → Dom
  | .text t => .text t
  | .elem tag as [] => .elem tag (sortAttrs as) []
  | .elem tag as [.text t] => .elem tag (sortAttrs as) [.text t]
  | .elem tag as (c :: cs) => .elem tag (sortAttrs as) (indents n (c :: cs))
/-- See `indent`. -/
def indents (n : ℕ) : List Dom → List Dom
  | [] => [.text ('\n' :: tabs n)]
  | d :: ds => .text ('\n' :: tabs (n + 1)) :: indent (n + 1) d :: indents n ds
end

/-- Text and elements do not stand side by side. -/
inductive Unmixed : Dom → Prop
  | leaf {tag : Txt} {as : List (Txt × Txt)} {t : Txt} : Unmixed (.elem tag as [.text t])
  | node {tag : Txt} {as : List (Txt × Txt)} {cs : List Dom} : (∀ c ∈ cs, isText c = false) →
      (∀ c ∈ cs, Unmixed c) → Unmixed (.elem tag as cs)

theorem indent_node (n : ℕ) (tag : Txt) (as : List (Txt × Txt)) (c : Dom) (cs : List Dom) (h : isText c = false) :
    indent n (.elem tag as (c :: cs)) = .elem tag (sortAttrs as) (indents n (c :: cs)) := by
  cases c with
  | text t => cases h
  | elem t a ds => rw [indent]; intro t e; cases e

theorem indents_eq (n : ℕ) (ds : List Dom) : indents n ds =
    ds.flatMap (fun d => [.text ('\n' :: tabs (n + 1)), indent (n + 1) d]) ++ [.text ('\n' :: tabs n)] := by
  induction ds with
  | nil => rw [indents]; rfl
  | cons d ds ih => rw [indents, ih]; rfl

theorem prettyAll_eq (n : ℕ) (ds : List Dom) : prettyAll n ds = ds.flatMap (pretty n) := by
  induction ds with
  | nil => rfl
  | cons d ds ih => rw [prettyAll, ih]; rfl

theorem pretty_node (n : ℕ) (tag : Txt) (as : List (Txt × Txt)) (c : Dom) (cs : List Dom) (h : isText c = false) :
    pretty n (.elem tag as (c :: cs)) = tabs n ++ '<' :: tag ++ attrsText escapeData (sortAttrs as) ++
      ('>' :: '\n' :: prettyAll (n + 1) (c :: cs) ++ tabs n ++ '<' :: '/' :: tag ++ ['>', '\n']) := by
  cases c with
  | text t => cases h
  | elem t a ds => rw [pretty] <;> simp

theorem escapeData_white (n : ℕ) : ('\n' :: tabs n).flatMap escapeData = '\n' :: tabs n := by
  have e1 : escapeData '\n' = ['\n'] := by decide
  have e2 : escapeData '\t' = ['\t'] := by decide
  have e3 : (tabs n).flatMap escapeData = tabs n := by
    induction n with
    | zero => rfl
    | succ n ih =>
      show List.flatMap escapeData (List.replicate (n + 1) '\t') = List.replicate (n + 1) '\t'
      rw [List.replicate_succ, List.flatMap_cons, e2, ih]; rfl
  rw [List.flatMap_cons, e1, e3]; rfl

/-- `esc` in texts and values. -/
abbrev escDom (d : Dom) : Dom := mapDom (fun t => t.flatMap escapeData) (fun v => v.flatMap escapeData) d

theorem indent_isText (n : ℕ) (d : Dom) : isText (indent n d) = isText d := by
  cases d with
  | text t => simp [indent]
  | elem tag as cs =>
    match cs with
    | [] => rw [indent]; rfl
    | [.text t] => rw [indent]; rfl
    | .text t :: c :: cs => rw [indent] <;> simp [isText]
    | .elem t a ds :: cs => rw [indent]; rfl; intro t e; cases e

theorem pretty_render (d : Dom) (h : Unmixed d) : ∀ n, pretty n d = tabs n ++ render [] (escDom (indent n d)) ++ ['\n'] := by
  induction d using Dom.ind with
  | ht t => cases h
  | he tag as cs ih =>
    intro n
    cases h with
    | leaf =>
      rename_i t
      rw [pretty, indent]
      simp [render, mapDom, mapDoms, renders, attrsText_eq]
    | node h1 h2 =>
      cases cs with
      | nil =>
        rw [pretty, indent]
        simp [render, mapDom, mapDoms, attrsText_eq]
      | cons c cs =>
        rw [pretty_node n tag as c cs (h1 c (List.mem_cons_self ..)), indent_node n tag as c cs (h1 c (List.mem_cons_self ..))]
        have key : ∀ ds : List Dom, (∀ d ∈ ds, ∀ n, pretty n d = tabs n ++ render [] (escDom (indent n d)) ++ ['\n']) →
            renders [] (mapDoms (fun t => t.flatMap escapeData) (fun v => v.flatMap escapeData) (indents n ds)) =
            '\n' :: prettyAll (n + 1) ds ++ tabs n := by
          intro ds hds
          induction ds with
          | nil =>
            rw [indents, mapDoms, mapDoms, renders, renders, mapDom, render, escapeData_white]
            simp [prettyAll]
          | cons d ds ih2 =>
            rw [indents, mapDoms, mapDoms, renders, renders, mapDom, render, escapeData_white,
              ih2 fun e he => hds e (List.mem_cons_of_mem _ he), prettyAll,
              hds d (List.mem_cons_self ..)]
            simp
        have k := key (c :: cs) fun d hd => ih d hd (h2 d hd)
        simp only [escDom, mapDom, render, mapDoms_isEmpty]
        rw [k, attrsText_eq]
        have : (indents n (c :: cs)).isEmpty = false := by rw [indents]; rfl
        rw [this]
        simp

theorem good_indent (d : Dom) (h : Good d) (hu : Unmixed d) : ∀ n, Good (indent n d) := by
  induction d using Dom.ind with
  | ht t => cases hu
  | he tag as cs ih =>
    intro n
    obtain ⟨h1, h2, h3, h4, h5⟩ := h
    have a1 : ∀ kv ∈ sortAttrs as, ValidName kv.1 := fun kv hkv => h2 kv ((sortAttrs_perm _).mem_iff.mp hkv)
    have a2 : ((sortAttrs as).map Prod.fst).Nodup := by
      rw [((sortAttrs_perm as).map Prod.fst).nodup_iff]; exact h3
    cases hu with
    | leaf => rw [indent]; exact ⟨h1, a1, a2, h4, h5⟩
    | node g1 g2 =>
      cases cs with
      | nil => rw [indent]; exact ⟨h1, a1, a2, h4, h5⟩
      | cons c cs =>
        rw [indent_node n tag as c cs (g1 c (List.mem_cons_self ..))]
        rw [goods_iff] at h5
        refine ⟨h1, a1, a2, ?_, ?_⟩
        · clear h4
          generalize c :: cs = ds at g1
          induction ds with
          | nil => rw [indents]; rfl
          | cons d ds ih2 =>
            have ih2 := ih2 fun e he => g1 e (List.mem_cons_of_mem _ he)
            have hd := indent_isText (n + 1) d
            rw [g1 d (List.mem_cons_self ..)] at hd
            rw [indents]
            cases hi : indents n ds with
            | nil => simp [apart, hd]
            | cons e es =>
              rw [hi] at ih2
              simp [apart, hd, ih2]
        · rw [goods_iff, indents_eq]
          intro d hd
          rcases List.mem_append.mp hd with hd | hd
          · obtain ⟨e, he, hd⟩ := List.mem_flatMap.mp hd
            simp only [List.mem_cons, List.not_mem_nil, or_false] at hd
            rcases hd with rfl | rfl
            · exact List.cons_ne_nil _ _
            · exact ih e he (h5 e he) (g2 e he) (n + 1)
          · rw [List.mem_singleton.mp hd]; exact List.cons_ne_nil _ _

theorem charsIn_indent (P : Char → Prop) (hP : P '\n' ∧ P '\t') (d : Dom) (h : CharsIn P d) (hu : Unmixed d) :
    ∀ n, CharsIn P (indent n d) := by
  have hw : ∀ n, CharsIn P (.text ('\n' :: tabs n)) := fun n => .text (by
    intro c hc
    rcases List.mem_cons.mp hc with rfl | hc
    · exact hP.1
    · rw [List.eq_of_mem_replicate hc]; exact hP.2)
  induction d using Dom.ind with
  | ht t => cases hu
  | he tag as cs ih =>
    intro n
    cases h with
    | elem h1 h2 h3 =>
      have a1 : ∀ kv ∈ sortAttrs as, (∀ c ∈ kv.1, P c) ∧ ∀ c ∈ kv.2, P c :=
        fun kv hkv => h2 kv ((sortAttrs_perm _).mem_iff.mp hkv)
      cases hu with
      | leaf => rw [indent]; exact .elem h1 a1 h3
      | node g1 g2 =>
        cases cs with
        | nil => rw [indent]; exact .elem h1 a1 h3
        | cons c cs =>
          rw [indent_node n tag as c cs (g1 c (List.mem_cons_self ..)), indents_eq]
          refine .elem h1 a1 ?_
          intro d hd
          rcases List.mem_append.mp hd with hd | hd
          · obtain ⟨e, he, hd⟩ := List.mem_flatMap.mp hd
            simp only [List.mem_cons, List.not_mem_nil, or_false] at hd
            rcases hd with rfl | rfl
            · exact hw _
            · exact ih e he (h3 e he) (g2 e he) (n + 1)
          · rw [List.mem_singleton.mp hd]; exact hw n

theorem unmixed_map (f g : Txt → Txt) (d : Dom) (h : Unmixed d) : Unmixed (mapDom f g d) := by
  induction d using Dom.ind with
  | ht t => cases h
  | he tag as cs ih =>
    cases h with
    | leaf => rw [mapDom, mapDoms, mapDoms, mapDom]; exact .leaf
    | node h1 h2 =>
      rw [mapDom, mapDoms_eq]
      refine .node ?_ ?_
      · intro c hc
        obtain ⟨e, he, rfl⟩ := List.mem_map.mp hc
        rw [mapDom_isText]; exact h1 e he
      · intro c hc
        obtain ⟨e, he, rfl⟩ := List.mem_map.mp hc
        exact ih e he (h2 e he)

/-- A document after the declaration of the XML version. -/
theorem parse_laid (d : Dom) (hg' : Good d) (ht : isText d = false)
    (hc' : CharsIn (fun c => xmlChar c = true ∧ c ≠ '\r') d) :
    parseDom ("<?xml version=\"1.0\" ?>\n".toList ++ render [] (escDom d) ++ ['\n']) =
      some (mapDom id (fun v => v.map blank) d) := by
  have hcE : CharsIn (fun c => xmlChar c = true ∧ c ≠ '\r') (escDom d) := by
    have key : ∀ t : Txt, (∀ c ∈ t, xmlChar c = true ∧ c ≠ '\r') → ∀ c ∈ t.flatMap escapeData,
        xmlChar c = true ∧ c ≠ '\r' := by
      intro t ht c hcm
      obtain ⟨e, he, hm⟩ := List.mem_flatMap.mp hcm
      rcases (escapeData_mem e c hm).2.2.2 with rfl | h
      · exact ht _ he
      · have : ∀ c ∈ ['&', 'a', 'm', 'p', ';', 'l', 't', 'g', 'q', 'u', 'o'], xmlChar c = true ∧ c ≠ '\r' := by decide
        exact this c h
    exact charsIn_map _ _ (fun _ h => h) _ _ key key _ hc'
  have hr := render_chars _ [] (by simp) (by decide) _ hcE
  have hno : normEnds ("<?xml version=\"1.0\" ?>\n".toList ++ render [] (escDom d) ++ ['\n']) =
      "<?xml version=\"1.0\" ?>\n".toList ++ render [] (escDom d) ++ ['\n'] := by
    have e : "<?xml version=\"1.0\" ?>\n".toList ++ render [] (escDom d) ++ ['\n'] =
        ("<?xml version=\"1.0\" ?>\n".toList ++ render [] (escDom d) ++ ['\n']) ++ [] := by simp
    rw [e, normEnds_pass]
    · simp [normEnds]
    · intro hm
      rcases List.mem_append.mp hm with hm | hm
      · rcases List.mem_append.mp hm with hm | hm
        · revert hm; decide
        · exact (hr _ hm).2 rfl
      · revert hm; decide
  refine parse_render _ ['\n'] [] (by decide) _ _ _ _ enc_text2 enc_attr2 d hg' ht ?_ (by decide) (.inr rfl) _ hno ?_
  · intro r n
    have e1 : lexTok ("<?xml version=\"1.0\" ?>\n".toList ++ '<' :: r) = some (none, '\n' :: '<' :: r) := rfl
    have e2 : lexTok ('\n' :: '<' :: r) = some (some (.chars ['\n']), '<' :: r) :=
      lexTok_chars ['\n'] ['\n'] r (by simp) (by decide) (by decide) (by decide)
    rw [lex_cons (n + 1) _ (by simp) _ _ e1, lex_cons n _ (by simp) _ _ e2]
    cases lex n ('<' :: r) <;> rfl
  · rw [hno, List.all_eq_true]
    intro c hcm
    rcases List.mem_append.mp hcm with hm | hm
    · rcases List.mem_append.mp hm with hm | hm
      · have : ∀ c ∈ "<?xml version=\"1.0\" ?>\n".toList, xmlChar c = true := by decide
        exact this c hm
      · exact (hr _ hm).1
    · rw [List.mem_singleton.mp hm]; decide

/-- The text of an indented document is read as that document. -/
theorem parse_pretty (d : Dom) (hg : Good d) (hu : Unmixed d) (hc : CharsIn (fun c => xmlChar c = true ∧ c ≠ '\r') d) :
    parseDom ("<?xml version=\"1.0\" ?>\n".toList ++ pretty 0 d) = some (mapDom id (fun v => v.map blank) (indent 0 d)) := by
  rw [← parse_laid (indent 0 d) (good_indent d hg hu 0) (by rw [indent_isText]; cases hu <;> rfl)
    (charsIn_indent _ (by decide) d hc hu 0), pretty_render d hu 0]
  simp [tabs]

end XmlText
end CLF
