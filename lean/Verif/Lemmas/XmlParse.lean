import Verif.Lemmas.XmlText

/-! # Building documents, escaping, layout -/

set_option linter.unusedSectionVars false

namespace CLF
namespace XmlText

/-! ### Building -/

theorem addChars_new (s : Txt) (hs : s ≠ []) (cs : List Dom) (h : ∀ d ∈ cs.getLast?, isText d = false) :
    addChars s cs = cs ++ [.text s] := by
  unfold addChars
  rw [if_neg hs]
  cases hc : cs.getLast? with
  | none => rfl
  | some d =>
    have := h d hc
    cases d with
    | text u => cases this
    | elem tag as ds => rfl

mutual
theorem build_elem (d : Dom) (hd : Good d) (ht : isText d = false) (g : Txt) (a : List (Txt × Txt))
    (cs : List Dom) (fs : List Frame) :
    (toks d).foldlM buildStep ((g, a, cs) :: fs) = some ((g, a, cs ++ [d]) :: fs) := by
  match d, hd, ht with
  | .elem tag as ds, hd, _ =>
    obtain ⟨h1, h2, h3, h4, h5⟩ := hd
    rw [toks]
    by_cases he : ds.isEmpty
    · have hc : ds = [] := by simpa using he
      subst hc
      simp [buildStep, h3]
    · rw [if_neg he, List.cons_append, List.foldlM_cons]
      have e1 : buildStep ((g, a, cs) :: fs) (.start tag as false) = some ((tag, as, []) :: (g, a, cs) :: fs) := by
        simp [buildStep, h3]
      rw [e1]
      simp only [Option.bind_eq_bind, Option.bind_some, List.foldlM_append]
      rw [build_list ds h5 h4 tag as [] ((g, a, cs) :: fs) (.inl rfl)]
      simp [buildStep]
termination_by sizeOf d
theorem build_list (ds : List Dom) (hd : Goods ds) (ha : apart ds = true) (g : Txt) (a : List (Txt × Txt))
    (cs : List Dom) (fs : List Frame)
    (hs : cs.getLast?.all (fun d => !isText d) = true ∨ ∀ d ∈ ds.head?, isText d = false) :
    (tokss ds).foldlM buildStep ((g, a, cs) :: fs) = some ((g, a, cs ++ ds) :: fs) := by
  match ds, hd, ha, hs with
  | [], _, _, _ => simp [tokss]
  | d :: ds, hd, ha, hs =>
    obtain ⟨hd1, hd2⟩ := hd
    have ha' : apart ds = true := by
      cases ds with
      | nil => rfl
      | cons e ds => simp only [apart, Bool.and_eq_true] at ha; exact ha.2
    rw [tokss, List.foldlM_append]
    cases hdt : isText d with
    | false =>
      rw [build_elem d hd1 hdt g a cs fs]
      simp only [Option.bind_eq_bind, Option.bind_some]
      rw [build_list ds hd2 ha' g a (cs ++ [d]) fs (.inl (by simp [hdt]))]
      simp
    | true =>
      cases d with
      | elem tag as cs => cases hdt
      | text t =>
        have hlast : ∀ d ∈ cs.getLast?, isText d = false := by
          rcases hs with hs | hs
          · intro d hd
            rw [hd] at hs
            simpa using hs
          · have := hs (.text t) rfl
            simp [isText] at this
        rw [toks, List.foldlM_cons]
        rw [show buildStep ((g, a, cs) :: fs) (.chars t) = some ((g, a, cs ++ [.text t]) :: fs) by
          rw [buildStep, addChars_new t hd1 cs hlast]]
        simp only [Option.bind_eq_bind, Option.bind_some, List.foldlM_nil]
        show (tokss ds).foldlM buildStep _ = _
        rw [build_list ds hd2 ha' g a (cs ++ [Dom.text t]) fs (.inr (by
          intro e he
          cases ds with
          | nil => cases he
          | cons e' ds =>
            simp at he; subst he
            simp only [apart, hdt, Bool.true_and, Bool.and_eq_true, Bool.not_eq_true'] at ha
            exact ha.1))]
        simp
termination_by sizeOf ds
end

theorem mapDom_isText (f g : Txt → Txt) (d : Dom) : isText (mapDom f g d) = isText d := by
  cases d <;> rfl

theorem mapDoms_eq (f g : Txt → Txt) (ds : List Dom) : mapDoms f g ds = ds.map (mapDom f g) := by
  induction ds with
  | nil => rfl
  | cons d ds ih => rw [mapDoms, ih]; rfl

theorem goods_iff (ds : List Dom) : Goods ds ↔ ∀ d ∈ ds, Good d := by
  induction ds with
  | nil => simp [Goods]
  | cons d ds ih => simp [Goods, ih]

theorem renders_eq (sp : Txt) (ds : List Dom) : renders sp ds = ds.flatMap (render sp) := by
  induction ds with
  | nil => rfl
  | cons d ds ih => rw [renders, ih]; rfl

theorem apart_map (f g : Txt → Txt) (ds : List Dom) : apart (mapDoms f g ds) = apart ds := by
  induction ds with
  | nil => rfl
  | cons d ds ih =>
    cases ds with
    | nil => rfl
    | cons e ds =>
      simp only [mapDoms, apart, mapDom_isText] at ih ⊢
      rw [ih]

theorem Dom.ind {P : Dom → Prop} (ht : ∀ t, P (.text t)) (he : ∀ t a cs, (∀ c ∈ cs, P c) → P (.elem t a cs))
    (d : Dom) : P d := by
  refine Dom.rec (motive_1 := P) (motive_2 := fun cs => ∀ c ∈ cs, P c) ht he ?_ ?_ d
  · intro c hc; cases hc
  · intro c cs hc hcs d hd
    rcases List.mem_cons.mp hd with rfl | hd
    exacts [hc, hcs d hd]

theorem good_map (f g : Txt → Txt) (hf : ∀ t, t ≠ [] → f t ≠ []) (d : Dom) (h : Good d) : Good (mapDom f g d) := by
  induction d using Dom.ind with
  | ht t => exact hf t h
  | he tag as cs ih =>
    obtain ⟨h1, h2, h3, h4, h5⟩ := h
    rw [goods_iff] at h5
    refine ⟨h1, ?_, by rw [mapAttrs_names]; exact h3, by rw [apart_map]; exact h4, ?_⟩
    · intro kv hkv
      obtain ⟨kv', h, rfl⟩ := List.mem_map.mp hkv
      exact h2 kv' h
    · rw [goods_iff, mapDoms_eq]
      intro d hd
      obtain ⟨d', h, rfl⟩ := List.mem_map.mp hd
      exact ih d' h (h5 d' h)

theorem mapDom_comp (f g f' g' : Txt → Txt) (d : Dom) :
    mapDom f g (mapDom f' g' d) = mapDom (f ∘ f') (g ∘ g') d := by
  induction d using Dom.ind with
  | ht t => rfl
  | he tag as cs ih =>
    simp only [mapDom, mapAttrs, List.map_map, mapDoms_eq]
    congr 1
    exact List.map_congr_left ih

theorem toks_length (sp : Txt) (f f' g g' : Txt → Txt) (hf : EncText f f') (d : Dom) (h : Good d) :
    (toks (mapDom f' g' d)).length ≤ (render sp (mapDom f g d)).length := by
  induction d using Dom.ind with
  | ht t =>
    have := (hf t h).1
    simp only [mapDom, toks, render, List.length_singleton]
    exact List.length_pos_iff.mpr this
  | he tag as cs ih =>
    obtain ⟨h1, h2, h3, h4, h5⟩ := h
    rw [goods_iff] at h5
    have key : (tokss (mapDoms f' g' cs)).length ≤ (renders sp (mapDoms f g cs)).length := by
      clear h4
      induction cs with
      | nil => simp [mapDoms, tokss]
      | cons c cs ih2 =>
        simp only [mapDoms, tokss, renders, List.length_append]
        have a1 := ih c (List.mem_cons_self ..) (h5 c (List.mem_cons_self ..))
        have a2 := ih2 (fun d hd => ih d (List.mem_cons_of_mem _ hd)) (fun d hd => h5 d (List.mem_cons_of_mem _ hd))
        omega
    simp only [mapDom, toks, render, mapDoms_isEmpty]
    split
    · simp
    · simp only [List.length_append, List.length_cons, List.length_nil]
      omega

/-! ### Characters of a document -/

/-- All characters of names, values and texts. -/
inductive CharsIn (P : Char → Prop) : Dom → Prop
  | text {t : Txt} : (∀ c ∈ t, P c) → CharsIn P (.text t)
  | elem {tag : Txt} {as : List (Txt × Txt)} {cs : List Dom} : (∀ c ∈ tag, P c) →
      (∀ kv ∈ as, (∀ c ∈ kv.1, P c) ∧ ∀ c ∈ kv.2, P c) → (∀ d ∈ cs, CharsIn P d) → CharsIn P (.elem tag as cs)

theorem render_chars (P : Char → Prop) (sp : Txt) (hsp : ∀ c ∈ sp, P c)
    (hP : ∀ c ∈ ['<', '>', '/', '=', '"', ' '], P c) (d : Dom) (h : CharsIn P d) : ∀ c ∈ render sp d, P c := by
  induction d using Dom.ind with
  | ht t => cases h with | text h => exact h
  | he tag as cs ih =>
    cases h with
    | elem h1 h2 h3 =>
      have ha : ∀ c ∈ renderAttrs as, P c := by
        intro c hc
        unfold renderAttrs at hc
        obtain ⟨kv, hkv, hc⟩ := List.mem_flatMap.mp hc
        obtain ⟨g1, g2⟩ := h2 kv hkv
        simp only [List.mem_append, List.mem_cons, List.not_mem_nil, or_false] at hc
        rcases hc with (hc | hc) | hc
        · rcases hc with hc | hc
          · exact hP c (by simp [hc])
          · exact g1 c hc
        · rcases hc with hc | hc | hc
          · exact hP c (by simp [hc])
          · exact hP c (by simp [hc])
          · exact g2 c hc
        · exact hP c (by simp [hc])
      have hcs : ∀ c ∈ renders sp cs, P c := by
        rw [renders_eq]
        intro c hc
        obtain ⟨d, hd, hc⟩ := List.mem_flatMap.mp hc
        exact ih d hd (h3 d hd) c hc
      intro c hc
      rw [render] at hc
      rcases List.mem_append.mp hc with hc | hc
      · rcases List.mem_append.mp hc with hc | hc
        · rcases List.mem_cons.mp hc with hc | hc
          · exact hP c (by simp [hc])
          · exact h1 c hc
        · exact ha c hc
      · split at hc
        · rcases List.mem_append.mp hc with hc | hc
          · exact hsp c hc
          · simp only [List.mem_cons, List.not_mem_nil, or_false] at hc
            rcases hc with hc | hc <;> exact hP c (by simp [hc])
        · rcases List.mem_append.mp hc with hc | hc
          · rcases List.mem_append.mp hc with hc | hc
            · rcases List.mem_cons.mp hc with hc | hc
              · exact hP c (by simp [hc])
              · exact hcs c hc
            · simp only [List.mem_cons] at hc
              rcases hc with hc | hc | hc
              · exact hP c (by simp [hc])
              · exact hP c (by simp [hc])
              · exact h1 c hc
          · simp only [List.mem_cons, List.not_mem_nil, or_false] at hc
            exact hP c (by simp [hc])

theorem charsIn_map (P Q : Char → Prop) (hPQ : ∀ c, P c → Q c) (f g : Txt → Txt) (hf : ∀ t, (∀ c ∈ t, P c) → ∀ c ∈ f t, Q c)
    (hg : ∀ t, (∀ c ∈ t, P c) → ∀ c ∈ g t, Q c) (d : Dom) (h : CharsIn P d) : CharsIn Q (mapDom f g d) := by
  induction d using Dom.ind with
  | ht t => cases h with | text h => exact .text (hf t h)
  | he tag as cs ih =>
    cases h with
    | elem h1 h2 h3 =>
      refine .elem (fun c hc => hPQ c (h1 c hc)) ?_ ?_
      · intro kv hkv
        obtain ⟨kv', h, rfl⟩ := List.mem_map.mp hkv
        exact ⟨fun c hc => hPQ c ((h2 kv' h).1 c hc), hg _ (h2 kv' h).2⟩
      · rw [mapDoms_eq]
        intro d hd
        obtain ⟨d', h, rfl⟩ := List.mem_map.mp hd
        exact ih d' h (h3 d' h)

/-! ### Line ends of whole documents -/

theorem normEnds_pass (a x : Txt) (h : '\r' ∉ a) : normEnds (a ++ x) = a ++ normEnds x := by
  induction a with
  | nil => rfl
  | cons c a ih =>
    rw [List.cons_append, normEnds_cons c _ fun e => h (by rw [e]; exact List.mem_cons_self ..),
      ih fun e => h (List.mem_cons_of_mem _ e)]
    rfl

theorem validName_noCr (n : Txt) (h : ValidName n) : '\r' ∉ n := by
  obtain ⟨c, r, rfl, h1, h2⟩ := h
  intro hm
  exact absurd (h2 _ hm) (by decide)

theorem normEnds_attrs (as : List (Txt × Txt)) (h : ∀ kv ∈ as, ValidName kv.1) (x : Txt) :
    normEnds (renderAttrs as ++ x) = renderAttrs (mapAttrs normEnds as) ++ normEnds x := by
  induction as with
  | nil => rfl
  | cons kv as ih =>
    have ih := ih fun kv hkv => h kv (List.mem_cons_of_mem _ hkv)
    have hk := validName_noCr _ (h kv (List.mem_cons_self ..))
    have e1 : renderAttrs (kv :: as) ++ x =
        (' ' :: kv.1 ++ ['=', '"']) ++ (kv.2 ++ '"' :: (renderAttrs as ++ x)) := by
      simp [renderAttrs]
    have e2 : renderAttrs (mapAttrs normEnds (kv :: as)) ++ normEnds x =
        (' ' :: kv.1 ++ ['=', '"']) ++ (normEnds kv.2 ++ '"' :: (renderAttrs (mapAttrs normEnds as) ++ normEnds x)) := by
      simp [renderAttrs, mapAttrs]
    rw [e1, e2, normEnds_pass _ _ (by simp [hk]), normEnds_sep _ _ _ (by decide) (by decide), ih]

mutual
theorem normEnds_elem (sp : Txt) (hsp : '\r' ∉ sp) (d : Dom) (hd : Good d) (ht : isText d = false) (r : Txt) :
    normEnds (render sp d ++ r) = render sp (mapDom normEnds normEnds d) ++ normEnds r := by
  match d, hd, ht with
  | .elem tag as cs, hd, _ =>
    obtain ⟨h1, h2, h3, h4, h5⟩ := hd
    have htag := validName_noCr _ h1
    simp only [render, mapDom, mapDoms_isEmpty]
    split
    · have e1 : '<' :: tag ++ renderAttrs as ++ (sp ++ ['/', '>']) ++ r =
          ('<' :: tag) ++ (renderAttrs as ++ ((sp ++ ['/', '>']) ++ r)) := by simp
      rw [e1, normEnds_pass _ _ (by simp [htag]), normEnds_attrs as h2, normEnds_pass _ _ (by simp [hsp])]
      simp
    · have e1 : '<' :: tag ++ renderAttrs as ++ ('>' :: renders sp cs ++ '<' :: '/' :: tag ++ ['>']) ++ r =
          ('<' :: tag) ++ (renderAttrs as ++ (['>'] ++ (renders sp cs ++ '<' :: (('/' :: tag ++ ['>']) ++ r)))) := by simp
      rw [e1, normEnds_pass _ _ (by simp [htag]), normEnds_attrs as h2, normEnds_pass ['>'] _ (by simp),
        normEnds_list sp hsp cs h5 h4, normEnds_pass _ _ (by simp [htag])]
      simp
termination_by sizeOf d
theorem normEnds_list (sp : Txt) (hsp : '\r' ∉ sp) (ds : List Dom) (hd : Goods ds) (ha : apart ds = true) (r : Txt) :
    normEnds (renders sp ds ++ '<' :: r) = renders sp (mapDoms normEnds normEnds ds) ++ '<' :: normEnds r := by
  match ds, hd, ha with
  | [], _, _ => simp [renders, mapDoms, normEnds_cons]
  | d :: ds, hd, ha =>
    obtain ⟨hd1, hd2⟩ := hd
    have ha' : apart ds = true := by
      cases ds with
      | nil => rfl
      | cons e ds => simp only [apart, Bool.and_eq_true] at ha; exact ha.2
    have ih := normEnds_list sp hsp ds hd2 ha' r
    simp only [renders, mapDoms]
    cases hdt : isText d with
    | false =>
      rw [List.append_assoc, normEnds_elem sp hsp d hd1 hdt, ih, List.append_assoc]
    | true =>
      cases d with
      | elem tag as cs => cases hdt
      | text t =>
        have hh : ∃ s, renders sp ds ++ '<' :: r = '<' :: s := by
          cases ds with
          | nil => exact ⟨r, rfl⟩
          | cons e ds =>
            cases e with
            | text u => simp [apart, isText] at ha
            | elem tag as cs => exact ⟨_, by rw [renders, render]; rfl⟩
        obtain ⟨s, hs⟩ := hh
        simp only [render, mapDom]
        rw [List.append_assoc, hs, normEnds_sep _ _ _ (by decide) (by decide), ← normEnds_cons '<' s (by decide), ← hs,
          ih, List.append_assoc]
termination_by sizeOf ds
end

/-! ### Parsing a whole text -/

theorem parse_render (pre post sp : Txt) (hsp : sp.all xmlSpace = true) (f f' g g' : Txt → Txt) (hf : EncText f f')
    (hg : EncAttr g g') (d : Dom) (hd : Good d) (ht : isText d = false)
    (hpre : ∀ r n, lex (n + 2) (pre ++ '<' :: r) = (lex n ('<' :: r)).map ([Tok.chars ['\n']] ++ ·))
    (hprelen : 2 ≤ pre.length)
    (hpost : post = [] ∨ post = ['\n'])
    (s : Txt) (hs : normEnds s = pre ++ render sp (mapDom f g d) ++ post)
    (hc : (normEnds s).all xmlChar = true) :
    parseDom s = some (mapDom f' g' d) := by
  unfold parseDom
  simp only [hc, if_true]
  have hl := toks_length sp f f' g g' hf d hd
  have hlen : (normEnds s).length = pre.length + (render sp (mapDom f g d)).length + post.length := by
    rw [hs]; simp; omega
  obtain ⟨k, hk⟩ : ∃ k, (normEnds s).length = (k + post.length + (toks (mapDom f' g' d)).length) + 2 := by
    refine ⟨(normEnds s).length - 2 - post.length - (toks (mapDom f' g' d)).length, ?_⟩
    omega
  obtain ⟨r0, hr0⟩ : ∃ r0, render sp (mapDom f g d) ++ post = '<' :: r0 := by
    cases d with
    | text t => cases ht
    | elem tag as cs => exact ⟨_, by rw [mapDom, render]; rfl⟩
  have hpl : lex (k + post.length) post = some (if post = [] then [] else [.chars ['\n']]) := by
    rcases hpost with rfl | rfl
    · cases k <;> rfl
    · show lex (k + 1) ['\n'] = _
      rw [lex_cons k _ (by simp) (some (.chars ['\n'])) [] (by decide)]
      cases k <;> rfl
  have hlex : lex (normEnds s).length (normEnds s) =
      some ([Tok.chars ['\n']] ++ (toks (mapDom f' g' d) ++ if post = [] then [] else [.chars ['\n']])) := by
    rw [hk, hs, List.append_assoc, hr0, hpre, ← hr0,
      lex_elem sp hsp f f' g g' hf hg d hd ht, hpl]
    rfl
  rw [hlex]
  simp only [Option.bind_eq_bind, Option.bind_some, List.foldlM_append]
  have hgd := good_map f' g' (fun t h => (hf t h).2.2.2.2) d hd
  rw [show [Tok.chars ['\n']].foldlM buildStep [([], [], [])] = some [([], [], [.text ['\n']])] by
    simp [buildStep, addChars]]
  simp only [Option.bind_some]
  rw [build_elem _ hgd (by rw [mapDom_isText]; exact ht)]
  simp only [Option.bind_some]
  cases hd' : mapDom f' g' d with
  | text t => rw [← mapDom_isText f' g' d, hd'] at ht; cases ht
  | elem tag as cs =>
    rcases hpost with rfl | rfl
    · simp [rootOf, xmlSpace]
    · simp [rootOf, xmlSpace, buildStep, addChars]

end XmlText
end CLF
