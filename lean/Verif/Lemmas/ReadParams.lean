import Verif.Lemmas.ReadFile
import Verif.Lemmas.Numerals
import Verif.Spec.Params

/-! # Parameters of nodes -/

set_option linter.unusedSectionVars false

namespace CLF

variable {K : Type} [Field K] [LinearOrder K] [IsStrictOrderedRing K] [FloorRing K]

theorem get?_lookup {α : Type} (d : Dict α) (k : String) : d.get? k = d.lookup k := by
  induction d with
  | nil => rfl
  | cons p d ih =>
    obtain ⟨q, w⟩ := p
    rw [Dict.get?, List.lookup_cons]
    by_cases h : q = k
    · subst h; simp
    · have : (k == q) = false := by simp [Ne.symm h]
      rw [if_neg h, this, ih]

/-! ### Numbers -/

theorem floatOfText_iff (t : Option String) (v : Flt K) :
    floatOfText t = .ok v ↔ ∃ s, t = some s ∧ Spec.Number s v := by
  cases t with
  | none => simp [floatOfText]
  | some s =>
    unfold floatOfText
    simp only [Option.some.injEq, exists_eq_left']
    constructor
    · intro h
      obtain ⟨n, h1, h2⟩ := py_bind_eq_ok.mp h
      exact ⟨n, (parseFloat_iff _ _).mp h1, (Except.ok.inj h2).symm⟩
    · rintro ⟨n, h1, rfl⟩
      exact py_bind_eq_ok.mpr ⟨n, (parseFloat_iff _ _).mpr h1, rfl⟩

theorem words_iff (t : Txt) (ws : List Txt) : Spec.WordsOf t ws ↔ words t = ws := by
  have key : ∀ t ws, Spec.WordsOf t ws → words t = ws := by
    intro t ws h
    induction h with
    | @nil b hb =>
      induction b with
      | nil => rfl
      | cons c b ih =>
        rw [words_space c b ((blank_iff c).mp (hb c (by simp)))]
        exact ih fun x hx => hb x (by simp [hx])
    | @cons b w rest ws hb hne hw hr h ih =>
      have hn : NoSpace w := fun c hc => by
        have := hw c hc
        rw [blank_iff] at this
        exact Bool.eq_false_iff.mpr this
      have hbs : words (b ++ (w ++ rest)) = words (w ++ rest) := by
        clear ih h
        induction b with
        | nil => rfl
        | cons c b ih =>
          rw [List.cons_append, words_space c _ ((blank_iff c).mp (hb c (by simp)))]
          exact ih fun x hx => hb x (by simp [hx])
      rw [hbs]
      cases rest with
      | nil => rw [List.append_nil, words_single w hn hne, ← ih]; rfl
      | cons c r =>
        have hc := (blank_iff c).mp (hr c r rfl)
        rw [words_word w hn hne c hc r, ← ih, words_space c r hc]
  refine ⟨key t ws, ?_⟩
  rintro rfl
  suffices ∃ ws, Spec.WordsOf t ws by
    obtain ⟨ws, h⟩ := this
    rw [key t ws h]; exact h
  induction hlen : t.length using Nat.strong_induction_on generalizing t with
  | _ n ih =>
    obtain ⟨b, hb, hbt⟩ := dropWhile_split t
    cases hd : t.dropWhile isSpace with
    | nil =>
      rw [hd, List.append_nil] at hbt
      exact ⟨[], hbt ▸ .nil fun c hc => (blank_iff c).mpr (hb c hc)⟩
    | cons c r =>
      have hc : isSpace c = false := by
        have := List.head_dropWhile_not isSpace (l := t) (by rw [hd]; simp)
        simpa [hd] using this
      let w := (c :: r).takeWhile fun c => !isSpace c
      let rest := (c :: r).dropWhile fun c => !isSpace c
      have hwr : c :: r = w ++ rest := (List.takeWhile_append_dropWhile).symm
      have hw : w = c :: r.takeWhile fun c => !isSpace c := by
        show (c :: r).takeWhile _ = _
        rw [List.takeWhile_cons_of_pos]; simp [hc]
      have hlt : rest.length < n := by
        have h1 := congrArg List.length hbt
        have h2 := congrArg List.length hwr
        rw [hw] at h2
        rw [hd] at h1
        simp only [List.length_append, List.length_cons] at h1 h2
        omega
      obtain ⟨ws, hws⟩ := ih rest.length hlt rest rfl
      refine ⟨w :: ws, ?_⟩
      rw [hbt, hd, hwr]
      refine .cons (fun c hc => (blank_iff c).mpr (hb c hc)) (by rw [hw]; simp) ?_ ?_ hws
      · intro c hc
        rw [blank_iff]
        have := List.mem_takeWhile_imp hc
        simpa using this
      · intro d s hs
        rw [blank_iff]
        have hne : rest ≠ [] := by rw [hs]; simp
        have := List.head_dropWhile_not (fun c => !isSpace c) (l := c :: r) hne
        have e : ((c :: r).dropWhile fun c => !isSpace c).head hne = d := by
          have : ∀ (l : List Char) (h : l ≠ []), l = d :: s → l.head h = d := by
            rintro l h rfl; rfl
          exact this _ _ hs
        rw [e] at this
        simpa using this

theorem mapM_forall₂ {α β : Type} (f : α → Py β) (R : α → β → Prop) (h : ∀ a b, f a = .ok b ↔ R a b) :
    ∀ (l : List α) (r : List β), l.mapM f = .ok r ↔ List.Forall₂ R l r := by
  intro l
  induction l with
  | nil =>
    intro r
    rw [List.mapM_nil]
    constructor
    · intro h; cases h; exact .nil
    · intro h; cases h; rfl
  | cons a l ih =>
    intro r
    rw [List.mapM_cons]
    constructor
    · intro hm
      obtain ⟨b, h1, hm⟩ := py_bind_eq_ok.mp hm
      obtain ⟨bs, h2, hm⟩ := py_bind_eq_ok.mp hm
      cases hm
      exact .cons ((h a b).mp h1) ((ih bs).mp h2)
    · intro hf
      cases hf with
      | cons h1 h2 =>
        exact py_bind_eq_ok.mpr ⟨_, (h _ _).mpr h1, py_bind_eq_ok.mpr ⟨_, (ih _).mpr h2, rfl⟩⟩

theorem floatsOfText_iff (t : Option String) (vs : List (Flt K)) :
    floatsOfText t = .ok vs ↔ ∃ s, t = some s ∧ Spec.Numbers s vs := by
  cases t with
  | none => simp [floatsOfText]
  | some s =>
    unfold floatsOfText
    simp only [Option.some.injEq, exists_eq_left']
    rw [mapM_forall₂ _ (fun w v => ∃ n : SFlt K, Spec.NumberText w n ∧ v = n.toFlt)]
    · constructor
      · intro h; exact ⟨_, (words_iff _ _).mpr rfl, h⟩
      · rintro ⟨ws, h1, h2⟩
        rw [(words_iff _ _).mp h1]; exact h2
    · intro w v
      constructor
      · intro h
        obtain ⟨n, h1, h2⟩ := py_bind_eq_ok.mp h
        exact ⟨n, (parseFloat_iff _ _).mp h1, (Except.ok.inj h2).symm⟩
      · rintro ⟨n, h1, rfl⟩
        exact py_bind_eq_ok.mpr ⟨n, (parseFloat_iff _ _).mpr h1, rfl⟩

theorem floatAttr_iff (c : Xml) (key : String) (d : K) (v : Flt K) :
    floatAttr c key (.fin d) = .ok v ↔ Spec.Given c key d v := by
  unfold floatAttr Spec.Given
  rw [get?_lookup]
  cases c.attrs.lookup key with
  | none => simp [eq_comm]
  | some t =>
    simp only [floatOfText_iff, Option.some.injEq, exists_eq_left']

theorem floatAttr_total (c : Xml) (key : String) (d : K) :
    (∃ v, floatAttr c key (.fin d) = .ok v) ↔ Spec.NumericIfGiven K c key := by
  simp only [floatAttr_iff, Spec.Given, Spec.NumericIfGiven]
  cases c.attrs.lookup key with
  | none => simp
  | some t => simp

/-! ### Folds over children -/

theorem named_dec (c : Xml) (name : String) : Spec.Named c.tag name ↔ elementType c.tag = name := by
  rw [named_iff]; exact eq_comm

theorem readCommon_none_iff (compat : ℕ) (b : Base K) (c : Xml) :
    readCommon compat false b c = .ok none ↔
      elementType c.tag ≠ "Description" ∧ elementType c.tag ≠ "DynamicParameter" := by
  unfold readCommon
  simp only
  by_cases h1 : elementType c.tag = "Description"
  · simp [h1]
  · by_cases h2 : elementType c.tag = "DynamicParameter"
    · simp only [h2]
      by_cases h3 : hasFeature compat autodesk = true
      · cases h4 : c.attrs.get? "param" <;> simp [h3]
      · simp [h3]
    · simp [h1, h2]

theorem readCommon_total (compat : ℕ) (b : Base K) (c : Xml) :
    ∃ o, readCommon compat false b c = .ok o := by
  unfold readCommon
  simp only
  by_cases h1 : elementType c.tag = "Description"
  · exact ⟨_, by rw [if_pos h1]⟩
  · rw [if_neg h1]
    by_cases h2 : elementType c.tag = "DynamicParameter"
    · rw [if_pos h2]
      by_cases h3 : hasFeature compat autodesk = true
      · rw [if_pos h3]
        cases h4 : c.attrs.get? "param" <;> exact ⟨_, rfl⟩
      · rw [if_neg h3]; exact ⟨_, rfl⟩
    · exact ⟨_, by rw [if_neg h2]⟩

/-- A child that every node class understands leaves the class data and the values alone. -/
theorem readCommon_values (compat : ℕ) (b b' : Base K) (c : Xml)
    (h : readCommon compat false b c = .ok (some b')) : b'.values = b.values := by
  unfold readCommon at h
  simp only at h
  by_cases h1 : elementType c.tag = "Description"
  · rw [if_pos h1] at h; cases h; rfl
  · rw [if_neg h1] at h
    by_cases h2 : elementType c.tag = "DynamicParameter"
    · rw [if_pos h2] at h
      by_cases h3 : hasFeature compat autodesk = true
      · rw [if_pos h3] at h
        cases h4 : c.attrs.get? "param" <;> (rw [h4] at h; cases h; rfl)
      · rw [if_neg h3] at h; cases h; rfl
    · rw [if_neg h2] at h; cases h

/-- One child: it is common to all classes, and neither class data nor values change, or it
is read by the class. -/
theorem readLeafStep_cases (A : Arith K) (compat : ℕ) (k k' : Kind K) (b b' : Base K) (c : Xml)
    (h : readLeafStep A compat false (k, b) c = .ok (k', b')) :
    (elementType c.tag = "Description" ∨ elementType c.tag = "DynamicParameter") ∧ k' = k ∧
        b'.values = b.values ∨
      elementType c.tag ≠ "Description" ∧ elementType c.tag ≠ "DynamicParameter" ∧
        readLeafChild A k b c = .ok (k', b') := by
  unfold readLeafStep at h
  obtain ⟨o, h1, h2⟩ := py_bind_eq_ok.mp h
  cases o with
  | none =>
    obtain ⟨h3, h4⟩ := (readCommon_none_iff compat b c).mp h1
    exact .inr ⟨h3, h4, h2⟩
  | some b1 =>
    cases h2
    refine .inl ⟨?_, rfl, readCommon_values compat b _ c h1⟩
    by_contra hn
    rw [not_or] at hn
    rw [(readCommon_none_iff compat b c).mpr hn] at h1
    cases h1

/-- Reading a leaf element, leniently. -/
theorem readNode_leaf (A : Arith K) (compat : ℕ) (load : String → Py (Option (List (Node K))))
    (strict : Bool) (x : Xml) (n : Node K) (name : String) (k : Kind K) (b : Base K)
    (hx : Spec.Named x.tag name) (hc : classOf name = some (.leaf k b))
    (h : readNode A compat load strict x = .ok n) :
    ∃ k' b', n = .leaf k' b' ∧
      x.children.foldlM (readLeafStep A compat false) (k, readAttrs b x.attrs) = .ok (k', b') := by
  have h' : readNode A compat load false x = .ok n := by
    cases strict with
    | false => exact h
    | true => exact ((readNode_strict A compat load x n).mp h).1
  rw [readNode_mk, (named_dec x name).mp hx, hc] at h'
  simp only [readLeaf] at h'
  obtain ⟨⟨k', b'⟩, h1, h2⟩ := py_bind_eq_ok.mp h'
  cases h2
  exact ⟨k', b', rfl, h1⟩

theorem readNode_leaf_total (A : Arith K) (compat : ℕ) (load : String → Py (Option (List (Node K))))
    (x : Xml) (name : String) (k : Kind K) (b : Base K)
    (hx : Spec.Named x.tag name) (hc : classOf name = some (.leaf k b)) :
    (∃ n, readNode A compat load false x = .ok n) ↔
      ∃ r, x.children.foldlM (readLeafStep A compat false) (k, readAttrs b x.attrs) = .ok r := by
  rw [readNode_mk, (named_dec x name).mp hx, hc]
  simp only [readLeaf]
  constructor
  · rintro ⟨n, h⟩
    obtain ⟨r, h1, _⟩ := py_bind_eq_ok.mp h
    exact ⟨r, h1⟩
  · rintro ⟨r, h⟩
    exact ⟨_, py_bind_eq_ok.mpr ⟨r, h, rfl⟩⟩

/-- A fold whose steps succeed or fail whatever the state is. -/
theorem foldlM_ok_iff {σ α : Type} (f : σ → α → Py σ) (I : σ → Prop) (P : α → Prop)
    (hk : ∀ s a r, I s → f s a = .ok r → I r) (h : ∀ s a, I s → ((∃ r, f s a = .ok r) ↔ P a)) :
    ∀ (l : List α) (s : σ), I s → ((∃ r, l.foldlM f s = .ok r) ↔ ∀ a ∈ l, P a) := by
  intro l
  induction l with
  | nil => intro s _; exact ⟨fun _ a ha => by simp at ha, fun _ => ⟨s, rfl⟩⟩
  | cons a l ih =>
    intro s hs
    rw [List.foldlM_cons, List.forall_mem_cons]
    constructor
    · rintro ⟨r, hr⟩
      obtain ⟨s', h1, h2⟩ := py_bind_eq_ok.mp hr
      exact ⟨(h s a hs).mp ⟨s', h1⟩, (ih s' (hk s a s' hs h1)).mp ⟨r, h2⟩⟩
    · rintro ⟨h1, h2⟩
      obtain ⟨s', h3⟩ := (h s a hs).mpr h1
      obtain ⟨r, h4⟩ := (ih s' (hk s a s' hs h3)).mpr h2
      exact ⟨r, py_bind_eq_ok.mpr ⟨s', h3, h4⟩⟩

/-! ### The extension nodes -/

/-- What a `LogParams` element says. -/
def LogRow (c : Xml) (p : LogParam K) : Prop :=
  Spec.Given c "gamma" (6 / 10) p.gamma ∧ Spec.Given c "refWhite" 685 p.refWhite ∧
  Spec.Given c "refBlack" 95 p.refBlack ∧ Spec.Given c "highlight" 1 p.highlight ∧
  Spec.Given c "shadow" 0 p.shadow ∧ p.channel = c.attrs.lookup "channel"

theorem log_child (A : Arith K) (ps : List (LogParam K)) (b : Base K) (c : Xml) (k' : Kind K)
    (b' : Base K) : readLeafChild A (.log ps) b c = .ok (k', b') ↔
      b' = b ∧ (elementType c.tag = "LogParams" ∧ (∃ p, LogRow c p ∧ k' = .log (ps ++ [p])) ∨
        elementType c.tag ≠ "LogParams" ∧ k' = .log ps) := by
  unfold readLeafChild LogRow
  simp only
  by_cases hc : elementType c.tag = "LogParams"
  · rw [if_pos hc]
    simp only [hc, true_and, ne_eq, not_true_eq_false, false_and, or_false, ← floatAttr_iff]
    constructor
    · intro h
      obtain ⟨g, h1, h⟩ := py_bind_eq_ok.mp h
      obtain ⟨w, h2, h⟩ := py_bind_eq_ok.mp h
      obtain ⟨bl, h3, h⟩ := py_bind_eq_ok.mp h
      obtain ⟨hl, h4, h⟩ := py_bind_eq_ok.mp h
      obtain ⟨s, h5, h⟩ := py_bind_eq_ok.mp h
      cases h
      exact ⟨rfl, _, ⟨h1, h2, h3, h4, h5, get?_lookup _ _⟩, rfl⟩
    · rintro ⟨rfl, ⟨g, w, bl, hl, s, ch⟩, ⟨h1, h2, h3, h4, h5, h6⟩, rfl⟩
      simp only at h1 h2 h3 h4 h5 h6
      rw [h1, h2, h3, h4, h5, get?_lookup, h6]; rfl
  · rw [if_neg hc]
    simp only [hc, false_and, ne_eq, not_false_eq_true, true_and, false_or]
    constructor
    · intro h; cases h; exact ⟨rfl, rfl⟩
    · rintro ⟨rfl, rfl⟩; rfl

theorem log_fold (A : Arith K) (compat : ℕ) : ∀ (cs : List Xml) (ps : List (LogParam K)) (b : Base K)
    (k' : Kind K) (b' : Base K),
    cs.foldlM (readLeafStep A compat false) (.log ps, b) = .ok (k', b') →
    ∃ ds qs, Spec.Picked (fun c => Spec.Named c.tag "LogParams") cs ds ∧ List.Forall₂ LogRow ds qs ∧
      k' = .log (ps ++ qs) := by
  intro cs
  induction cs with
  | nil =>
    intro ps b k' b' h
    cases h
    exact ⟨[], [], .nil, .nil, by simp⟩
  | cons c cs ih =>
    intro ps b k' b' h
    rw [List.foldlM_cons] at h
    obtain ⟨⟨k1, b1⟩, h1, h2⟩ := py_bind_eq_ok.mp h
    rcases readLeafStep_cases A compat _ k1 b b1 c h1 with ⟨h3, rfl, _⟩ | ⟨_, _, h3⟩
    · obtain ⟨ds, qs, g1, g2, g3⟩ := ih ps b1 k' b' h2
      refine ⟨ds, qs, .skip ?_ g1, g2, g3⟩
      rw [named_dec]
      rcases h3 with h3 | h3 <;> (rw [h3]; decide)
    · obtain ⟨_, ⟨h5, p, h6, rfl⟩ | ⟨h5, rfl⟩⟩ := (log_child A ps b c k1 b1).mp h3
      · obtain ⟨ds, qs, g1, g2, g3⟩ := ih _ b1 k' b' h2
        exact ⟨c :: ds, p :: qs, .take ((named_dec c _).mpr h5) g1, .cons h6 g2, by simp [g3]⟩
      · obtain ⟨ds, qs, g1, g2, g3⟩ := ih ps b1 k' b' h2
        exact ⟨ds, qs, .skip (by rw [named_dec]; exact h5) g1, g2, g3⟩

/-- What a `GammaParams` element says. -/
def GammaRow (c : Xml) (p : GammaParam K) : Prop :=
  Spec.Given c "gamma" 0 p.gamma ∧ Spec.Given c "offset" 0 p.offset ∧
  p.channel = c.attrs.lookup "channel"

theorem gamma_child (A : Arith K) (ps : List (GammaParam K)) (b : Base K) (c : Xml) (k' : Kind K)
    (b' : Base K) : readLeafChild A (.gamma ps) b c = .ok (k', b') ↔
      b' = b ∧ (elementType c.tag = "GammaParams" ∧ (∃ p, GammaRow c p ∧ k' = .gamma (ps ++ [p])) ∨
        elementType c.tag ≠ "GammaParams" ∧ k' = .gamma ps) := by
  unfold readLeafChild GammaRow
  simp only
  by_cases hc : elementType c.tag = "GammaParams"
  · rw [if_pos hc]
    simp only [hc, true_and, ne_eq, not_true_eq_false, false_and, or_false, ← floatAttr_iff]
    constructor
    · intro h
      obtain ⟨g, h1, h⟩ := py_bind_eq_ok.mp h
      obtain ⟨o, h2, h⟩ := py_bind_eq_ok.mp h
      cases h
      exact ⟨rfl, _, ⟨h1, h2, get?_lookup _ _⟩, rfl⟩
    · rintro ⟨rfl, ⟨g, o, ch⟩, ⟨h1, h2, h6⟩, rfl⟩
      simp only at h1 h2 h6
      rw [h1, h2, get?_lookup, h6]; rfl
  · rw [if_neg hc]
    simp only [hc, false_and, ne_eq, not_false_eq_true, true_and, false_or]
    constructor
    · intro h; cases h; exact ⟨rfl, rfl⟩
    · rintro ⟨rfl, rfl⟩; rfl

theorem gamma_fold (A : Arith K) (compat : ℕ) : ∀ (cs : List Xml) (ps : List (GammaParam K)) (b : Base K)
    (k' : Kind K) (b' : Base K),
    cs.foldlM (readLeafStep A compat false) (.gamma ps, b) = .ok (k', b') →
    ∃ ds qs, Spec.Picked (fun c => Spec.Named c.tag "GammaParams") cs ds ∧
      List.Forall₂ GammaRow ds qs ∧ k' = .gamma (ps ++ qs) := by
  intro cs
  induction cs with
  | nil =>
    intro ps b k' b' h
    cases h
    exact ⟨[], [], .nil, .nil, by simp⟩
  | cons c cs ih =>
    intro ps b k' b' h
    rw [List.foldlM_cons] at h
    obtain ⟨⟨k1, b1⟩, h1, h2⟩ := py_bind_eq_ok.mp h
    rcases readLeafStep_cases A compat _ k1 b b1 c h1 with ⟨h3, rfl, _⟩ | ⟨_, _, h3⟩
    · obtain ⟨ds, qs, g1, g2, g3⟩ := ih ps b1 k' b' h2
      refine ⟨ds, qs, .skip ?_ g1, g2, g3⟩
      rw [named_dec]
      rcases h3 with h3 | h3 <;> (rw [h3]; decide)
    · obtain ⟨_, ⟨h5, p, h6, rfl⟩ | ⟨h5, rfl⟩⟩ := (gamma_child A ps b c k1 b1).mp h3
      · obtain ⟨ds, qs, g1, g2, g3⟩ := ih _ b1 k' b' h2
        exact ⟨c :: ds, p :: qs, .take ((named_dec c _).mpr h5) g1, .cons h6 g2, by simp [g3]⟩
      · obtain ⟨ds, qs, g1, g2, g3⟩ := ih ps b1 k' b' h2
        exact ⟨ds, qs, .skip (by rw [named_dec]; exact h5) g1, g2, g3⟩

/-- What an `ECParams` element says. -/
def ContrastRow (c : Xml) (e ct p : Flt K) : Prop :=
  Spec.Given c "exposure" 0 e ∧ Spec.Given c "contrast" 1 ct ∧ Spec.Given c "pivot" 1 p

theorem contrast_child (A : Arith K) (e ct p : Flt K) (b : Base K) (c : Xml) (k' : Kind K)
    (b' : Base K) : readLeafChild A (.exposureContrast e ct p) b c = .ok (k', b') ↔
      b' = b ∧ (elementType c.tag = "ECParams" ∧
          (∃ e' ct' p', ContrastRow c e' ct' p' ∧ k' = .exposureContrast e' ct' p') ∨
        elementType c.tag ≠ "ECParams" ∧ k' = .exposureContrast e ct p) := by
  unfold readLeafChild ContrastRow
  simp only
  by_cases hc : elementType c.tag = "ECParams"
  · rw [if_pos hc]
    simp only [hc, true_and, ne_eq, not_true_eq_false, false_and, or_false, ← floatAttr_iff]
    constructor
    · intro h
      obtain ⟨g, h1, h⟩ := py_bind_eq_ok.mp h
      obtain ⟨o, h2, h⟩ := py_bind_eq_ok.mp h
      obtain ⟨q, h3, h⟩ := py_bind_eq_ok.mp h
      cases h
      exact ⟨rfl, _, _, _, ⟨h1, h2, h3⟩, rfl⟩
    · rintro ⟨rfl, e', ct', p', ⟨h1, h2, h3⟩, rfl⟩
      rw [h1, h2, h3]; rfl
  · rw [if_neg hc]
    simp only [hc, false_and, ne_eq, not_false_eq_true, true_and, false_or]
    constructor
    · intro h; cases h; exact ⟨rfl, rfl⟩
    · rintro ⟨rfl, rfl⟩; rfl

theorem contrast_fold (A : Arith K) (compat : ℕ) : ∀ (cs : List Xml) (e ct p : Flt K) (b : Base K)
    (k' : Kind K) (b' : Base K),
    cs.foldlM (readLeafStep A compat false) (.exposureContrast e ct p, b) = .ok (k', b') →
    ∃ ds e' ct' p', Spec.Picked (fun c => Spec.Named c.tag "ECParams") cs ds ∧
      (match ds.getLast? with
        | none => e' = e ∧ ct' = ct ∧ p' = p
        | some d => ContrastRow d e' ct' p') ∧ k' = .exposureContrast e' ct' p' := by
  intro cs
  induction cs with
  | nil =>
    intro e ct p b k' b' h
    cases h
    exact ⟨[], e, ct, p, .nil, ⟨rfl, rfl, rfl⟩, rfl⟩
  | cons c cs ih =>
    intro e ct p b k' b' h
    rw [List.foldlM_cons] at h
    obtain ⟨⟨k1, b1⟩, h1, h2⟩ := py_bind_eq_ok.mp h
    rcases readLeafStep_cases A compat _ k1 b b1 c h1 with ⟨h3, rfl, _⟩ | ⟨_, _, h3⟩
    · obtain ⟨ds, e', ct', p', g1, g2, g3⟩ := ih e ct p b1 k' b' h2
      refine ⟨ds, e', ct', p', .skip ?_ g1, g2, g3⟩
      rw [named_dec]
      rcases h3 with h3 | h3 <;> (rw [h3]; decide)
    · obtain ⟨_, ⟨h5, e1, ct1, p1, h6, rfl⟩ | ⟨h5, rfl⟩⟩ := (contrast_child A e ct p b c k1 b1).mp h3
      · obtain ⟨ds, e', ct', p', g1, g2, g3⟩ := ih _ _ _ b1 k' b' h2
        refine ⟨c :: ds, e', ct', p', .take ((named_dec c _).mpr h5) g1, ?_, g3⟩
        cases ds with
        | nil =>
          obtain ⟨rfl, rfl, rfl⟩ := g2
          exact h6
        | cons d ds => rw [List.getLast?_cons_cons]; exact g2
      · obtain ⟨ds, e', ct', p', g1, g2, g3⟩ := ih e ct p b1 k' b' h2
        exact ⟨ds, e', ct', p', .skip (by rw [named_dec]; exact h5) g1, g2, g3⟩

/-! ### Range -/

theorem range_child (A : Arith K) (b : Base K) (c : Xml) (k' : Kind K) (b' : Base K)
    (h : readLeafChild A .range b c = .ok (k', b')) :
    k' = .range ∧ ((isRangeValue (elementType c.tag) = true ∧ ∃ t v, c.text = some t ∧ Spec.Number t v ∧
        b'.values = b.values.set (elementType c.tag) v) ∨
      isRangeValue (elementType c.tag) = false ∧ b'.values = b.values) := by
  unfold readLeafChild at h
  simp only at h
  by_cases hc : isRangeValue (elementType c.tag) = true
  · rw [if_pos hc] at h
    obtain ⟨v, h1, h2⟩ := bind_pure_pair h
    cases h2
    obtain ⟨t, h3, h4⟩ := (floatOfText_iff _ _).mp h1
    exact ⟨rfl, .inl ⟨hc, t, v, h3, h4, rfl⟩⟩
  · rw [if_neg hc] at h
    cases h
    exact ⟨rfl, .inr ⟨Bool.eq_false_iff.mpr hc, rfl⟩⟩

theorem range_fold (A : Arith K) (compat : ℕ) (key : String) (hkey : isRangeValue key = true) :
    ∀ (cs : List Xml) (b : Base K) (k' : Kind K) (b' : Base K),
    cs.foldlM (readLeafStep A compat false) (.range, b) = .ok (k', b') →
    k' = .range ∧ ∃ ds, Spec.Picked (fun c => Spec.Named c.tag key) cs ds ∧
      match ds.getLast? with
      | none => b'.values.get? key = b.values.get? key
      | some d => ∃ t v, d.text = some t ∧ Spec.Number t v ∧ b'.values.get? key = some v := by
  intro cs
  induction cs with
  | nil =>
    intro b k' b' h
    cases h
    exact ⟨rfl, [], .nil, rfl⟩
  | cons c cs ih =>
    intro b k' b' h
    rw [List.foldlM_cons] at h
    obtain ⟨⟨k1, b1⟩, h1, h2⟩ := py_bind_eq_ok.mp h
    rcases readLeafStep_cases A compat _ k1 b b1 c h1 with ⟨h3, rfl, h4⟩ | ⟨_, _, h3⟩
    · obtain ⟨g0, ds, g1, g2⟩ := ih b1 k' b' h2
      refine ⟨g0, ds, .skip ?_ g1, ?_⟩
      · rw [named_dec]
        rcases h3 with h3 | h3 <;> (rw [h3]; rintro rfl; revert hkey; decide)
      · rw [h4] at g2; exact g2
    · obtain ⟨rfl, h4⟩ := range_child A b c k1 b1 h3
      obtain ⟨g0, ds, g1, g2⟩ := ih b1 k' b' h2
      refine ⟨g0, ?_⟩
      by_cases hc : elementType c.tag = key
      · refine ⟨c :: ds, .take ((named_dec c _).mpr hc) g1, ?_⟩
        rcases h4 with ⟨_, t, v, h5, h6, h7⟩ | ⟨h5, _⟩
        · cases ds with
          | nil => exact ⟨t, v, h5, h6, by rw [g2, h7, Dict.get?_set, if_pos hc]⟩
          | cons d ds => rw [List.getLast?_cons_cons]; exact g2
        · rw [hc, hkey] at h5; cases h5
      · refine ⟨ds, .skip (by rw [named_dec]; exact hc) g1, ?_⟩
        have e : b1.values.get? key = b.values.get? key := by
          rcases h4 with ⟨_, t, v, _, _, h7⟩ | ⟨_, h7⟩
          · rw [h7, Dict.get?_set, if_neg hc]
          · rw [h7]
        rw [e] at g2; exact g2

/-! ### ASC CDL -/

/-- The last of some elements, if there is one, decides; otherwise nothing changes. -/
def LastOr {α : Type} (R : String → α → Prop) (ds : List Xml) (old new : Option α) : Prop :=
  match ds.getLast? with
  | none => new = old
  | some d => ∃ t v, d.text = some t ∧ R t v ∧ new = some v

theorem LastOr.append {α : Type} {R : String → α → Prop} {ds es : List Xml} {a b c : Option α}
    (h1 : LastOr R ds a b) (h2 : LastOr R es b c) : LastOr R (ds ++ es) a c := by
  unfold LastOr at *
  rw [List.getLast?_append]
  cases h : es.getLast? with
  | none => rw [h] at h2; subst h2; simpa using h1
  | some d => rw [h] at h2; simpa using h2

theorem Picked.append {P : Xml → Prop} {cs ds cs' ds' : List Xml} (h1 : Spec.Picked P cs ds)
    (h2 : Spec.Picked P cs' ds') : Spec.Picked P (cs ++ cs') (ds ++ ds') := by
  induction h1 with
  | nil => exact h2
  | take hc _ ih => exact .take hc ih
  | skip hc _ ih => exact .skip hc ih

theorem noCase_iff (c : Xml) (name : String) :
    Spec.NamedNoCase c.tag name ↔ lower (elementType c.tag).toList = name.toList := by
  unfold Spec.NamedNoCase lower
  constructor
  · rintro ⟨n, h1, h2⟩
    rw [(named_dec c n).mp h1]; exact h2
  · intro h
    exact ⟨_, (named_dec c _).mpr rfl, h⟩

/-- Children of a `SOPNode` or `SatNode`, looking at one field. -/
theorem part_fold {α : Type} (R : String → α → Prop) (f : CdlValues K → Xml → Py (CdlValues K))
    (proj : CdlValues K → Option α) (name : String)
    (hf : ∀ v c v', f v c = .ok v' →
      elementType c.tag = name ∧ (∃ t a, c.text = some t ∧ R t a ∧ proj v' = some a) ∨
      elementType c.tag ≠ name ∧ proj v' = proj v) :
    ∀ (cs : List Xml) (v v' : CdlValues K), cs.foldlM f v = .ok v' →
      ∃ ds, Spec.Picked (fun c => Spec.Named c.tag name) cs ds ∧ LastOr R ds (proj v) (proj v') := by
  intro cs
  induction cs with
  | nil => intro v v' h; cases h; exact ⟨[], .nil, rfl⟩
  | cons c cs ih =>
    intro v v' h
    rw [List.foldlM_cons] at h
    obtain ⟨v1, h1, h2⟩ := py_bind_eq_ok.mp h
    obtain ⟨ds, g1, g2⟩ := ih v1 v' h2
    rcases hf v c v1 h1 with ⟨h3, h4⟩ | ⟨h3, h4⟩
    · exact ⟨c :: ds, .take ((named_dec c _).mpr h3) g1,
        LastOr.append (ds := [c]) (show LastOr R [c] (proj v) (proj v1) from h4) g2⟩
    · exact ⟨ds, .skip (by rw [named_dec]; exact h3) g1, h4 ▸ g2⟩

/-- Children of an ASC CDL, looking at one field. -/
theorem cdl_fold {α : Type} (A : Arith K) (compat : ℕ) (cc : Bool) (R : String → α → Prop)
    (proj : CdlValues K → Option α) (group name : String)
    (h1 : ∀ v c v', lower (elementType c.tag).toList = group.toList → readCdlChild v c = .ok v' →
      ∃ ds, Spec.Picked (fun c => Spec.Named c.tag name) c.children ds ∧ LastOr R ds (proj v) (proj v'))
    (h2 : ∀ v c v', lower (elementType c.tag).toList ≠ group.toList → readCdlChild v c = .ok v' →
      proj v' = proj v)
    (hg : group.toList ≠ "description".toList ∧ group.toList ≠ "dynamicparameter".toList) :
    ∀ (cs : List Xml) (v : CdlValues K) (b : Base K) (k' : Kind K) (b' : Base K),
      cs.foldlM (readLeafStep A compat false) (.cdl cc v, b) = .ok (k', b') →
      ∃ v' gs ds, k' = .cdl cc v' ∧ Spec.Picked (fun c => Spec.NamedNoCase c.tag group) cs gs ∧
        Spec.Picked (fun c => Spec.Named c.tag name) (gs.flatMap Xml.children) ds ∧
        LastOr R ds (proj v) (proj v') := by
  intro cs
  induction cs with
  | nil => intro v b k' b' h; cases h; exact ⟨v, [], [], rfl, .nil, .nil, rfl⟩
  | cons c cs ih =>
    intro v b k' b' h
    rw [List.foldlM_cons] at h
    obtain ⟨⟨k1, b1⟩, g1, g2⟩ := py_bind_eq_ok.mp h
    rcases readLeafStep_cases A compat _ k1 b b1 c g1 with ⟨g3, rfl, _⟩ | ⟨_, _, g3⟩
    · obtain ⟨v', gs, ds, e1, e2, e3, e4⟩ := ih v b1 k' b' g2
      refine ⟨v', gs, ds, e1, .skip ?_ e2, e3, e4⟩
      rw [noCase_iff]
      rcases g3 with g3 | g3
      · rw [g3]; exact fun h => hg.1 (h.symm.trans (by decide))
      · rw [g3]; exact fun h => hg.2 (h.symm.trans (by decide))
    · unfold readLeafChild at g3
      simp only at g3
      obtain ⟨v1, g4, g5⟩ := bind_pure_pair g3
      cases g5
      obtain ⟨v', gs, ds, e1, e2, e3, e4⟩ := ih v1 _ k' b' g2
      by_cases hc : lower (elementType c.tag).toList = group.toList
      · obtain ⟨es, f1, f2⟩ := h1 v c v1 hc g4
        refine ⟨v', c :: gs, es ++ ds, e1, .take ((noCase_iff c group).mpr hc) e2, ?_, f2.append e4⟩
        rw [List.flatMap_cons]
        exact Picked.append f1 e3
      · exact ⟨v', gs, ds, e1, .skip (by rw [noCase_iff]; exact hc) e2, e3, h2 v c v1 hc g4 ▸ e4⟩

theorem readSop_slope (v v' : CdlValues K) (c : Xml) (h : readSop v c = .ok v') :
    (elementType c.tag = "Slope" ∧ (∃ t a, c.text = some t ∧ Spec.Numbers t a ∧ v'.slope = some a) ∨
      elementType c.tag ≠ "Slope" ∧ v'.slope = v.slope) ∧
    (elementType c.tag = "Offset" ∧ (∃ t a, c.text = some t ∧ Spec.Numbers t a ∧ v'.offset = some a) ∨
      elementType c.tag ≠ "Offset" ∧ v'.offset = v.offset) ∧
    (elementType c.tag = "Power" ∧ (∃ t a, c.text = some t ∧ Spec.Numbers t a ∧ v'.power = some a) ∨
      elementType c.tag ≠ "Power" ∧ v'.power = v.power) ∧ v'.saturation = v.saturation := by
  unfold readSop at h
  simp only at h
  by_cases c1 : elementType c.tag = "Slope"
  · rw [if_pos c1] at h
    obtain ⟨a, h1, h2⟩ := bind_pure_pair h
    cases h2
    obtain ⟨t, h3, h4⟩ := (floatsOfText_iff _ _).mp h1
    rw [c1]
    exact ⟨.inl ⟨rfl, t, a, h3, h4, rfl⟩, .inr ⟨by decide, rfl⟩, .inr ⟨by decide, rfl⟩, rfl⟩
  · rw [if_neg c1] at h
    by_cases c2 : elementType c.tag = "Offset"
    · rw [if_pos c2] at h
      obtain ⟨a, h1, h2⟩ := bind_pure_pair h
      cases h2
      obtain ⟨t, h3, h4⟩ := (floatsOfText_iff _ _).mp h1
      rw [c2]
      exact ⟨.inr ⟨by decide, rfl⟩, .inl ⟨rfl, t, a, h3, h4, rfl⟩, .inr ⟨by decide, rfl⟩, rfl⟩
    · rw [if_neg c2] at h
      by_cases c3 : elementType c.tag = "Power"
      · rw [if_pos c3] at h
        obtain ⟨a, h1, h2⟩ := bind_pure_pair h
        cases h2
        obtain ⟨t, h3, h4⟩ := (floatsOfText_iff _ _).mp h1
        rw [c3]
        exact ⟨.inr ⟨by decide, rfl⟩, .inr ⟨by decide, rfl⟩, .inl ⟨rfl, t, a, h3, h4, rfl⟩, rfl⟩
      · rw [if_neg c3] at h
        cases h
        exact ⟨.inr ⟨c1, rfl⟩, .inr ⟨c2, rfl⟩, .inr ⟨c3, rfl⟩, rfl⟩

theorem readSat_cases (v v' : CdlValues K) (c : Xml) (h : readSat v c = .ok v') :
    (elementType c.tag = "Saturation" ∧
        (∃ t a, c.text = some t ∧ Spec.Number t a ∧ v'.saturation = some a) ∨
      elementType c.tag ≠ "Saturation" ∧ v'.saturation = v.saturation) ∧
    v'.slope = v.slope ∧ v'.offset = v.offset ∧ v'.power = v.power := by
  unfold readSat at h
  by_cases c1 : elementType c.tag = "Saturation"
  · rw [if_pos c1] at h
    obtain ⟨a, h1, h2⟩ := bind_pure_pair h
    cases h2
    obtain ⟨t, h3, h4⟩ := (floatOfText_iff _ _).mp h1
    exact ⟨.inl ⟨c1, t, a, h3, h4, rfl⟩, rfl, rfl, rfl⟩
  · rw [if_neg c1] at h
    cases h
    exact ⟨.inr ⟨c1, rfl⟩, rfl, rfl, rfl⟩

/-- A field of the `SOPNode`s. -/
theorem cdl_sop (A : Arith K) (compat : ℕ) (cc : Bool) (proj : CdlValues K → Option (List (Flt K)))
    (name : String)
    (hf : ∀ v c v', readSop v c = .ok v' →
      elementType c.tag = name ∧ (∃ t a, c.text = some t ∧ Spec.Numbers t a ∧ proj v' = some a) ∨
      elementType c.tag ≠ name ∧ proj v' = proj v)
    (hs : ∀ v c v', readSat v c = .ok v' → proj v' = proj v) (cs : List Xml) (v : CdlValues K)
    (b : Base K) (k' : Kind K) (b' : Base K)
    (h : cs.foldlM (readLeafStep A compat false) (.cdl cc v, b) = .ok (k', b')) :
    ∃ v' gs ds, k' = .cdl cc v' ∧ Spec.Picked (fun c => Spec.NamedNoCase c.tag "sopnode") cs gs ∧
      Spec.Picked (fun c => Spec.Named c.tag name) (gs.flatMap Xml.children) ds ∧
      LastOr Spec.Numbers ds (proj v) (proj v') := by
  refine cdl_fold A compat cc Spec.Numbers proj "sopnode" name ?_ ?_ (by decide) cs v b k' b' h
  · intro v c v' hc hr
    unfold readCdlChild at hr
    simp only [hc, if_true] at hr
    exact part_fold _ readSop proj name hf _ _ _ hr
  · intro v c v' hc hr
    unfold readCdlChild at hr
    simp only [hc, if_false] at hr
    by_cases h2 : lower (elementType c.tag).toList = "satnode".toList
    · rw [if_pos h2] at hr
      exact foldlM_keeps (fun w => proj w = proj v) (fun s a r h1 h2 => (hs s a r h2).trans h1) _ _ _ rfl hr
    · rw [if_neg h2] at hr; cases hr; rfl

/-- The field of the `SatNode`s. -/
theorem cdl_sat (A : Arith K) (compat : ℕ) (cc : Bool) (cs : List Xml) (v : CdlValues K)
    (b : Base K) (k' : Kind K) (b' : Base K)
    (h : cs.foldlM (readLeafStep A compat false) (.cdl cc v, b) = .ok (k', b')) :
    ∃ v' gs ds, k' = .cdl cc v' ∧ Spec.Picked (fun c => Spec.NamedNoCase c.tag "satnode") cs gs ∧
      Spec.Picked (fun c => Spec.Named c.tag "Saturation") (gs.flatMap Xml.children) ds ∧
      LastOr Spec.Number ds v.saturation v'.saturation := by
  refine cdl_fold A compat cc Spec.Number (fun v => v.saturation) "satnode" "Saturation" ?_ ?_
    (by decide) cs v b k' b' h
  · intro v c v' hc hr
    unfold readCdlChild at hr
    simp only [hc, if_true] at hr
    rw [if_neg (by decide)] at hr
    exact part_fold _ readSat (fun v => v.saturation) "Saturation"
      (fun v c v' h => (readSat_cases v v' c h).1) _ _ _ hr
  · intro v c v' hc hr
    unfold readCdlChild at hr
    simp only [hc, if_false] at hr
    by_cases h2 : lower (elementType c.tag).toList = "sopnode".toList
    · rw [if_pos h2] at hr
      exact foldlM_keeps (fun w => w.saturation = v.saturation)
        (fun s a r h1 h2 => (readSop_slope s r a h2).2.2.2.trans h1) _ _ _ rfl hr
    · rw [if_neg h2] at hr; cases hr; rfl

end CLF
