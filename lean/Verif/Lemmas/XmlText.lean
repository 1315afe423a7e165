import Verif.Model.XmlText

/-! # Parsing what was written -/

set_option linter.unusedSectionVars false

namespace CLF
namespace XmlText

/-! ### Line ends -/

theorem normEnds_cons (c : Char) (r : Txt) (h : c ≠ '\r') : normEnds (c :: r) = c :: normEnds r := by
  rw [normEnds.eq_def]
  split
  · rename_i e; cases e
  · rename_i e; injection e with e1 e2; exact absurd e1 h
  · rename_i e; injection e with e1 e2; exact absurd e1 h
  · rename_i e; injection e with e1 e2; rw [e1, e2]

theorem normEnds_cr (r : Txt) (h : r.head? ≠ some '\n') : normEnds ('\r' :: r) = '\n' :: normEnds r := by
  rw [normEnds.eq_def]
  split
  · rename_i e; cases e
  · rename_i e; injection e with e1 e2; rw [e2] at h; simp at h
  · rename_i e; injection e with e1 e2; rw [e2]
  · rename_i h1 h2 e; injection e with e1 e2; exact absurd e1.symm h2

theorem normEnds_crlf (r : Txt) : normEnds ('\r' :: '\n' :: r) = '\n' :: normEnds r := by
  rw [normEnds]

theorem normEnds_sep (a : Txt) (c : Char) (b : Txt) (h1 : c ≠ '\n') (h2 : c ≠ '\r') :
    normEnds (a ++ c :: b) = normEnds a ++ c :: normEnds b := by
  induction a using normEnds.induct with
  | case1 => rw [List.nil_append, normEnds_cons c b h2]; rfl
  | case2 r ih => simp only [List.cons_append, normEnds_crlf, ih]
  | case3 r h ih =>
    have hr : r.head? ≠ some '\n' := by
      intro e
      cases r with
      | nil => cases e
      | cons x r => simp at e; exact h r (by rw [e])
    rw [List.cons_append, normEnds_cr, normEnds_cr r hr, ih]; rfl
    cases r with
    | nil => simpa using h1
    | cons x r => simpa using hr
  | case4 c' r h h' ih =>
    have : c' ≠ '\r' := fun e => h' e
    rw [List.cons_append, normEnds_cons _ _ this, normEnds_cons _ _ this, ih]; rfl

theorem normEnds_id (t : Txt) (h : '\r' ∉ t) : normEnds t = t := by
  induction t with
  | nil => rfl
  | cons c r ih =>
    rw [normEnds_cons c r fun e => h (by rw [e]; exact List.mem_cons_self ..), ih fun e => h (List.mem_cons_of_mem _ e)]

theorem normEnds_noCr (t : Txt) : '\r' ∉ normEnds t := by
  induction t using normEnds.induct with
  | case1 => simp [normEnds]
  | case2 r ih => rw [normEnds_crlf]; simpa using ih
  | case3 r h ih =>
    have hr : r.head? ≠ some '\n' := by
      intro e
      cases r with
      | nil => cases e
      | cons x r => simp at e; exact h r (by rw [e])
    rw [normEnds_cr r hr]; simpa using ih
  | case4 c' r h h' ih =>
    have : c' ≠ '\r' := fun e => h' e
    rw [normEnds_cons _ _ this]
    simp only [List.mem_cons, not_or]
    exact ⟨fun e => this e.symm, ih⟩

theorem mem_normEnds (t : Txt) (c : Char) (h : c ∈ normEnds t) : c ∈ t ∨ c = '\n' := by
  induction t using normEnds.induct with
  | case1 => simp [normEnds] at h
  | case2 r ih =>
    rw [normEnds_crlf] at h
    rcases List.mem_cons.mp h with h | h
    · exact .inr h
    · rcases ih h with h | h
      · exact .inl (by simp [h])
      · exact .inr h
  | case3 r g ih =>
    have hr : r.head? ≠ some '\n' := by
      intro e
      cases r with
      | nil => cases e
      | cons x r => simp at e; exact g r (by rw [e])
    rw [normEnds_cr r hr] at h
    rcases List.mem_cons.mp h with h | h
    · exact .inr h
    · rcases ih h with h | h
      · exact .inl (by simp [h])
      · exact .inr h
  | case4 c' r g g' ih =>
    have : c' ≠ '\r' := fun e => g' e
    rw [normEnds_cons _ _ this] at h
    rcases List.mem_cons.mp h with h | h
    · exact .inl (by simp [h])
    · rcases ih h with h | h
      · exact .inl (by simp [h])
      · exact .inr h

theorem normEnds_ne_nil (t : Txt) (h : t ≠ []) : normEnds t ≠ [] := by
  cases t with
  | nil => exact absurd rfl h
  | cons c r =>
    by_cases hc : c = '\r'
    · subst hc
      cases r with
      | nil => simp [normEnds]
      | cons d r =>
        by_cases hd : d = '\n'
        · subst hd; rw [normEnds_crlf]; simp
        · rw [normEnds_cr _ (by simpa using hd)]; simp
    · rw [normEnds_cons _ _ hc]; simp

/-! ### Names -/

/-- A name as the parser takes it. -/
def ValidName (n : Txt) : Prop := ∃ c r, n = c :: r ∧ nameStart c = true ∧ ∀ x ∈ n, nameChar x = true

theorem takeWhile_append_stop {p : Char → Bool} (n : Txt) (h : ∀ x ∈ n, p x = true) (r : Txt)
    (hr : ∀ c ∈ r.head?, p c = false) :
    (n ++ r).takeWhile p = n ∧ (n ++ r).dropWhile p = r := by
  induction n with
  | nil =>
    cases r with
    | nil => exact ⟨rfl, rfl⟩
    | cons c r =>
      have := hr c rfl
      simp [List.takeWhile, List.dropWhile, this]
  | cons c n ih =>
    obtain ⟨h1, h2⟩ := ih fun x hx => h x (List.mem_cons_of_mem _ hx)
    have := h c (List.mem_cons_self ..)
    simp [List.takeWhile, List.dropWhile, this, h1, h2]

theorem takeName_append (n : Txt) (h : ValidName n) (r : Txt) (hr : ∀ c ∈ r.head?, nameChar c = false) :
    takeName (n ++ r) = some (n, r) := by
  obtain ⟨c, m, rfl, h1, h2⟩ := h
  obtain ⟨e1, e2⟩ := takeWhile_append_stop (c :: m) h2 r hr
  unfold takeName
  rw [e1, e2]
  simp [h1]

theorem nameStart_ne (c : Char) (h : nameStart c = true) : c ≠ '/' ∧ c ≠ '?' ∧ c ≠ '!' ∧ c ≠ '>' ∧
    xmlSpace c = false := by
  have key : ∀ d : Char, nameStart d = false → c ≠ d := by
    rintro d hd rfl; rw [h] at hd; cases hd
  refine ⟨key _ (by decide), key _ (by decide), key _ (by decide), key _ (by decide), ?_⟩
  have h1 := key ' ' (by decide)
  have h2 := key '\t' (by decide)
  have h3 := key '\n' (by decide)
  have h4 := key '\r' (by decide)
  simp [xmlSpace, h1, h2, h3, h4]

/-! ### Attributes -/

/-- Attributes with values as they are written. -/
def renderAttrs (as : List (Txt × Txt)) : Txt :=
  as.flatMap fun kv => ' ' :: kv.1 ++ '=' :: '"' :: kv.2 ++ ['"']

/-- An encoding of attribute values. -/
def EncAttr (g g' : Txt → Txt) : Prop :=
  ∀ v, '"' ∉ g v ∧ '<' ∉ g v ∧ attrValue (g v) = some (g' v)

/-- Encode the values. -/
def mapAttrs (g : Txt → Txt) (as : List (Txt × Txt)) : List (Txt × Txt) := as.map fun kv => (kv.1, g kv.2)

theorem lexAttrs_render (g g' : Txt → Txt) (hg : EncAttr g g') (e : Bool) (close : Txt)
    (hclose : ∀ r : Txt, ∃ c s, close ++ r = c :: s ∧ c ≠ '=' ∧ nameChar c = false ∧ (close ++ r).dropWhile xmlSpace =
      (if e then '/' :: '>' :: r else '>' :: r)) (as : List (Txt × Txt))
    (hn : ∀ kv ∈ as, ValidName kv.1) (n : ℕ) (hlen : as.length < n) (r : Txt) :
    lexAttrs n (renderAttrs (mapAttrs g as) ++ close ++ r) = some (mapAttrs g' as, e, r) := by
  induction as generalizing n with
  | nil =>
    obtain ⟨n, rfl⟩ : ∃ k, n = k + 1 := ⟨n - 1, by simp at hlen; omega⟩
    simp only [mapAttrs, List.map_nil, renderAttrs, List.flatMap_nil, List.nil_append]
    unfold lexAttrs
    obtain ⟨c, s, -, -, -, h⟩ := hclose r
    rw [h]
    cases e <;> simp
  | cons kv as ih =>
    obtain ⟨n, rfl⟩ : ∃ k, n = k + 1 := ⟨n - 1, by simp at hlen; omega⟩
    obtain ⟨k, v⟩ := kv
    have hk := hn (k, v) (List.mem_cons_self ..)
    have ih := ih (fun kv h => hn kv (List.mem_cons_of_mem _ h)) n (by simp at hlen; omega)
    obtain ⟨g1, g2, g3⟩ := hg v
    set rest := renderAttrs (mapAttrs g as) ++ close ++ r with hrest
    have etxt : renderAttrs (mapAttrs g ((k, v) :: as)) ++ close ++ r =
        ' ' :: (k ++ '=' :: '"' :: (g v ++ '"' :: rest)) := by
      simp [renderAttrs, mapAttrs, hrest]
    rw [etxt]
    obtain ⟨c, m, rfl, hc, hm⟩ := id hk
    obtain ⟨c1, c2, c3, c4, c5⟩ := nameStart_ne c hc
    have hdrop : (' ' :: ((c :: m) ++ '=' :: '"' :: (g v ++ '"' :: rest))).dropWhile xmlSpace =
        (c :: m) ++ '=' :: '"' :: (g v ++ '"' :: rest) := by
      rw [List.dropWhile_cons_of_pos (by decide), List.cons_append, List.dropWhile_cons_of_neg (by simp [c5])]
    have htake := takeName_append (c :: m) hk ('=' :: '"' :: (g v ++ '"' :: rest)) (by simp; decide)
    obtain ⟨q1, q2⟩ := takeWhile_append_stop (p := fun x => decide (x ≠ '"')) (g v)
      (by intro x hx; simp only [decide_eq_true_eq]; rintro rfl; exact g1 hx) ('"' :: rest) (by simp)
    unfold lexAttrs
    rw [hdrop]
    split
    · rename_i x e; simp at e; exact absurd e.1 c4
    · rename_i x e; simp at e; exact absurd e.1 c1
    · rw [if_neg (by simp)]
      rw [htake]
      simp only [Option.bind_eq_bind, Option.bind_some]
      rw [show ('=' :: '"' :: (g v ++ '"' :: rest)).dropWhile xmlSpace = '=' :: '"' :: (g v ++ '"' :: rest) from rfl]
      simp only
      rw [show ('"' :: (g v ++ '"' :: rest)).dropWhile xmlSpace = '"' :: (g v ++ '"' :: rest) from rfl]
      simp only [true_or, if_true]
      rw [q1, q2]
      simp only [g3, Option.bind_some, ih]
      rfl

/-! ### Texts -/

/-- An encoding of texts. -/
def EncText (f f' : Txt → Txt) : Prop :=
  ∀ t, t ≠ [] → f t ≠ [] ∧ '<' ∉ f t ∧ '>' ∉ f t ∧ decode none (f t) = some (f' t) ∧ f' t ≠ []

theorem upTo_none (t : Txt) (h : '>' ∉ t) : upTo [']', ']', '>'] t = none := by
  induction t with
  | nil => rfl
  | cons c r ih =>
    have hr : '>' ∉ r := fun e => h (List.mem_cons_of_mem _ e)
    unfold upTo
    rw [if_neg, ih hr]; rfl
    intro hp
    have := List.isPrefixOf_iff_prefix.mp hp
    exact h (this.subset (by simp))

theorem holds_false (t : Txt) (h : '>' ∉ t) : holds [']', ']', '>'] t = false := by
  unfold holds; rw [upTo_none t h]; rfl

/-! ### Documents -/

mutual
/-- A document with texts and values as they are written; `sp` stands before `/>`. -/
def render (sp : Txt) : Dom → Txt
  | .text t => t
  | .elem tag as cs => '<' :: tag ++ renderAttrs as ++
      (if cs.isEmpty then sp ++ ['/', '>'] else '>' :: renders sp cs ++ '<' :: '/' :: tag ++ ['>'])
/-- See `render`. -/
def renders (sp : Txt) : List Dom → Txt
  | [] => []
  | d :: ds => render sp d ++ renders sp ds
end

mutual
/-- Encode texts and values. -/
def mapDom (f g : Txt → Txt) : Dom → Dom
  | .text t => .text (f t)
  | .elem tag as cs => .elem tag (mapAttrs g as) (mapDoms f g cs)
/-- See `mapDom`. -/
def mapDoms (f g : Txt → Txt) : List Dom → List Dom
  | [] => []
  | d :: ds => mapDom f g d :: mapDoms f g ds
end

mutual
/-- The tags and texts of a document. -/
def toks : Dom → List Tok
  | .text t => [.chars t]
  | .elem tag as cs => if cs.isEmpty then [.start tag as true] else .start tag as false :: tokss cs ++ [.stop tag]
/-- See `toks`. -/
def tokss : List Dom → List Tok
  | [] => []
  | d :: ds => toks d ++ tokss ds
end

/-- Is it text? -/
def isText : Dom → Bool
  | .text _ => true
  | .elem _ _ _ => false

/-- No two texts next to each other. -/
def apart : List Dom → Bool
  | [] => true
  | [_] => true
  | d :: e :: ds => !(isText d && isText e) && apart (e :: ds)

mutual
/-- A document that can be written and read. -/
def Good : Dom → Prop
  | .text t => t ≠ []
  | .elem tag as cs => ValidName tag ∧ (∀ kv ∈ as, ValidName kv.1) ∧ (as.map Prod.fst).Nodup ∧
      apart cs = true ∧ Goods cs
/-- See `Good`. -/
def Goods : List Dom → Prop
  | [] => True
  | d :: ds => Good d ∧ Goods ds
end

theorem mapAttrs_names (g : Txt → Txt) (as : List (Txt × Txt)) : (mapAttrs g as).map Prod.fst = as.map Prod.fst := by
  simp [mapAttrs, Function.comp_def]

theorem mapDoms_isEmpty (f g : Txt → Txt) (cs : List Dom) : (mapDoms f g cs).isEmpty = cs.isEmpty := by
  cases cs <;> rfl

theorem lex_cons (n : ℕ) (s : Txt) (hs : s ≠ []) (t : Option Tok) (r : Txt) (h : lexTok s = some (t, r)) :
    lex (n + 1) s = (lex n r).map (t.toList ++ ·) := by
  cases s with
  | nil => exact absurd rfl hs
  | cons c s =>
    rw [lex, h]
    simp only [Option.bind_eq_bind, Option.bind_some]
    cases lex n r <;> rfl

theorem lexTok_start (n : Txt) (hn : ValidName n) (r s : Txt) (as : List (Txt × Txt)) (e : Bool)
    (hr : ∀ c ∈ r.head?, nameChar c = false) (h : lexAttrs (r.length + 1) r = some (as, e, s)) :
    lexTok ('<' :: n ++ r) = some (some (.start n as e), s) := by
  have htake := takeName_append n hn r hr
  obtain ⟨c, m, rfl, hc, hm⟩ := hn
  obtain ⟨c1, c2, c3, c4, c5⟩ := nameStart_ne c hc
  rw [List.cons_append]
  unfold lexTok
  split
  · rename_i x e; simp at e; exact absurd e.1 c1
  · rename_i x e; simp at e; exact absurd e.1 c2
  · rename_i x e; simp at e; exact absurd e.1 c3
  · rename_i x h1 h2 h3 e
    injection e with e1 e2
    rw [← e2, htake]
    simp only [Option.bind_eq_bind, Option.bind_some, h]
  · rename_i h1 h2 h3 h4
    exact absurd rfl (h4 _)

theorem lexTok_stop (n : Txt) (hn : ValidName n) (r : Txt) :
    lexTok ('<' :: '/' :: n ++ '>' :: r) = some (some (.stop n), r) := by
  have htake := takeName_append n hn ('>' :: r) (by simp; decide)
  rw [List.cons_append, List.cons_append]
  rw [lexTok, htake]
  simp [List.dropWhile, xmlSpace]

theorem lexTok_chars (raw t r : Txt) (h0 : raw ≠ []) (h1 : '<' ∉ raw) (h2 : '>' ∉ raw)
    (h3 : decode none raw = some t) : lexTok (raw ++ '<' :: r) = some (some (.chars t), '<' :: r) := by
  obtain ⟨q1, q2⟩ := takeWhile_append_stop (p := fun x => decide (x ≠ '<')) raw
    (by intro x hx; simp only [decide_eq_true_eq]; rintro rfl; exact h1 hx) ('<' :: r) (by simp)
  cases raw with
  | nil => exact absurd rfl h0
  | cons c raw =>
    have hc : c ≠ '<' := fun e => h1 (by rw [e]; exact List.mem_cons_self ..)
    have hh := holds_false _ h2
    unfold lexTok
    split
    · rename_i e; simp at e; exact absurd e.1 hc
    · rename_i e; simp at e; exact absurd e.1 hc
    · rename_i e; simp at e; exact absurd e.1 hc
    · rename_i e; simp at e; exact absurd e.1 hc
    · rw [q1, q2]
      simp only [hh, h3]
      rfl

theorem toks_length_pos (d : Dom) : 0 < (toks d).length := by
  cases d with
  | text t => simp [toks]
  | elem tag as cs => rw [toks]; split <;> simp

theorem start_head (g : Txt → Txt) (as : List (Txt × Txt)) (r : Txt) (hr : ∀ c ∈ r.head?, nameChar c = false) :
    ∀ c ∈ (renderAttrs (mapAttrs g as) ++ r).head?, nameChar c = false := by
  cases as with
  | nil => simpa [renderAttrs, mapAttrs] using hr
  | cons kv as =>
    intro c hc
    simp [renderAttrs, mapAttrs] at hc
    rw [← hc]; decide

theorem renders_head (sp : Txt) (f g : Txt → Txt) (ds : List Dom) (h : ∀ d ∈ ds.head?, isText d = false) (r : Txt) :
    ∃ s, renders sp (mapDoms f g ds) ++ '<' :: r = '<' :: s := by
  cases ds with
  | nil => exact ⟨r, rfl⟩
  | cons d ds =>
    cases d with
    | text t => exact absurd (h (.text t) rfl) (by simp [isText])
    | elem tag as cs => exact ⟨_, by rw [mapDoms, mapDom, renders, render]; rfl⟩

theorem renderAttrs_length (g : Txt → Txt) (as : List (Txt × Txt)) :
    as.length ≤ (renderAttrs (mapAttrs g as)).length := by
  induction as with
  | nil => simp
  | cons kv as ih =>
    have e : renderAttrs (mapAttrs g (kv :: as)) =
        (' ' :: kv.1 ++ '=' :: '"' :: g kv.2 ++ ['"']) ++ renderAttrs (mapAttrs g as) := rfl
    rw [e]
    simp only [List.length_append, List.length_cons]
    omega

mutual
theorem lex_elem (sp : Txt) (hsp : sp.all xmlSpace = true) (f f' g g' : Txt → Txt) (hf : EncText f f')
    (hg : EncAttr g g') (d : Dom) (hd : Good d) (ht : isText d = false) (n : ℕ) (r : Txt) :
    lex (n + (toks (mapDom f' g' d)).length) (render sp (mapDom f g d) ++ r) =
      (lex n r).map (toks (mapDom f' g' d) ++ ·) := by
  match d, hd, ht with
  | .elem tag as cs, hd, _ =>
    obtain ⟨h1, h2, h3, h4, h5⟩ := hd
    have hlen : ∀ s : Txt, as.length < (renderAttrs (mapAttrs g as) ++ s).length + 1 := by
      intro s
      have := renderAttrs_length g as
      rw [List.length_append]; omega
    by_cases he : cs.isEmpty
    · have hc : cs = [] := by simpa using he
      subst hc
      simp only [mapDom, mapDoms, render, toks, List.isEmpty_nil, if_true, List.length_singleton]
      have hcl : ∀ x : Txt, ∃ c s, sp ++ ['/', '>'] ++ x = c :: s ∧ c ≠ '=' ∧ nameChar c = false ∧
          (sp ++ ['/', '>'] ++ x).dropWhile xmlSpace = (if true then '/' :: '>' :: x else '>' :: x) := by
        intro x
        have hdw : (sp ++ ['/', '>'] ++ x).dropWhile xmlSpace = '/' :: '>' :: x := by
          rw [List.append_assoc]
          exact (takeWhile_append_stop (p := xmlSpace) sp (by simpa using hsp) ('/' :: '>' :: x)
            (by simp; decide)).2
        cases sp with
        | nil => exact ⟨'/', '>' :: x, rfl, by decide, by decide, hdw⟩
        | cons c s =>
          refine ⟨c, s ++ ['/', '>'] ++ x, by simp, ?_, ?_, hdw⟩
          · rintro rfl
            simp [xmlSpace] at hsp
          · have : xmlSpace c = true := by simp at hsp; exact hsp.1
            simp only [xmlSpace, Bool.or_eq_true, decide_eq_true_eq] at this
            rcases this with ((rfl | rfl) | rfl) | rfl <;> decide
      have hl := lexAttrs_render g g' hg true (sp ++ ['/', '>']) hcl as h2
        ((renderAttrs (mapAttrs g as) ++ (sp ++ ['/', '>']) ++ r).length + 1)
        (by have := hlen (sp ++ ['/', '>'] ++ r); rw [List.append_assoc]; exact this) r
      have := lexTok_start tag h1 (renderAttrs (mapAttrs g as) ++ (sp ++ ['/', '>']) ++ r) r _ true
        (by
          rw [List.append_assoc]
          refine start_head g as _ ?_
          obtain ⟨c, s, e1, -, e3, -⟩ := hcl r
          rw [e1]; intro x hx; simp at hx; rw [← hx]; exact e3) hl
      rw [lex_cons n _ (by simp) (some (.start tag (mapAttrs g' as) true)) r (by
        rw [← this]; simp)]
      rfl
    · have he' : cs.isEmpty = false := by simpa using he
      simp only [mapDom, render, toks, mapDoms_isEmpty, he', Bool.false_eq_true, if_false]
      have hcl : ∀ x : Txt, ∃ c s, ['>'] ++ x = c :: s ∧ c ≠ '=' ∧ nameChar c = false ∧
          (['>'] ++ x).dropWhile xmlSpace = (if false then '/' :: '>' :: x else '>' :: x) :=
        fun x => ⟨'>', x, rfl, by decide, by decide, rfl⟩
      set body := renders sp (mapDoms f g cs) ++ '<' :: '/' :: tag ++ ['>'] ++ r with hbody
      have hl := lexAttrs_render g g' hg false ['>'] hcl as h2
        ((renderAttrs (mapAttrs g as) ++ ['>'] ++ body).length + 1)
        (by have := hlen (['>'] ++ body); rw [List.append_assoc]; exact this) body
      have hs := lexTok_start tag h1 (renderAttrs (mapAttrs g as) ++ ['>'] ++ body) body _ false
        (by
          rw [List.append_assoc]
          refine start_head g as _ ?_
          intro x hx; simp at hx; rw [← hx]; decide) hl
      have hcs := lex_list sp hsp f f' g g' hf hg cs h5 h4 (n + 1) ('/' :: tag ++ '>' :: r)
      have hstop : lexTok ('<' :: ('/' :: tag ++ '>' :: r)) = _ := lexTok_stop tag h1 r
      have e1 : n + (Tok.start tag (mapAttrs g' as) false :: tokss (mapDoms f' g' cs) ++ [Tok.stop tag]).length =
          (n + 1 + (tokss (mapDoms f' g' cs)).length) + 1 := by simp; omega
      rw [e1, lex_cons _ _ (by simp) (some (.start tag (mapAttrs g' as) false)) body (by
        rw [← hs]; simp [hbody])]
      have e2 : body = renders sp (mapDoms f g cs) ++ '<' :: ('/' :: tag ++ '>' :: r) := by simp [hbody]
      rw [e2, hcs, lex_cons n _ (by simp) (some (.stop tag)) r hstop]
      cases lex n r <;> simp
termination_by sizeOf d
theorem lex_list (sp : Txt) (hsp : sp.all xmlSpace = true) (f f' g g' : Txt → Txt) (hf : EncText f f')
    (hg : EncAttr g g') (ds : List Dom) (hd : Goods ds) (ha : apart ds = true) (n : ℕ) (r : Txt) :
    lex (n + (tokss (mapDoms f' g' ds)).length) (renders sp (mapDoms f g ds) ++ '<' :: r) =
      (lex n ('<' :: r)).map (tokss (mapDoms f' g' ds) ++ ·) := by
  match ds, hd, ha with
  | [], _, _ => simp [mapDoms, renders, tokss]
  | d :: ds, hd, ha =>
    obtain ⟨hd1, hd2⟩ := hd
    have ha' : apart ds = true := by
      cases ds with
      | nil => rfl
      | cons e ds => simp only [apart, Bool.and_eq_true] at ha; exact ha.2
    have ih := lex_list sp hsp f f' g g' hf hg ds hd2 ha' n r
    simp only [mapDoms, renders, tokss]
    cases hdt : isText d with
    | false =>
      have h1 := lex_elem sp hsp f f' g g' hf hg d hd1 hdt (n + (tokss (mapDoms f' g' ds)).length)
        (renders sp (mapDoms f g ds) ++ '<' :: r)
      rw [List.length_append, show n + ((toks (mapDom f' g' d)).length + (tokss (mapDoms f' g' ds)).length) =
        n + (tokss (mapDoms f' g' ds)).length + (toks (mapDom f' g' d)).length by omega, List.append_assoc, h1, ih]
      cases lex n ('<' :: r) <;> simp
    | true =>
      cases d with
      | elem tag as cs => cases hdt
      | text t =>
        obtain ⟨q1, q2, q3, q4, q5⟩ := hf t hd1
        obtain ⟨s, hs⟩ := renders_head sp f g ds (by
          intro e he
          cases ds with
          | nil => cases he
          | cons e' ds =>
            simp at he; subst he
            simp only [apart, hdt, Bool.true_and, Bool.and_eq_true, Bool.not_eq_true'] at ha
            exact ha.1) r
        simp only [mapDom, render, toks]
        rw [List.append_assoc, hs, List.length_append, List.length_singleton,
          show n + (1 + (tokss (mapDoms f' g' ds)).length) = n + (tokss (mapDoms f' g' ds)).length + 1 by omega,
          lex_cons _ _ (by simp) (some (.chars (f' t))) ('<' :: s) (lexTok_chars (f t) (f' t) s q1 q2 q3 q4), ← hs, ih]
        cases lex n ('<' :: r) <;> simp
termination_by sizeOf ds
end

end XmlText
end CLF
