import Verif.Spec.XmlText
import Verif.Lemmas.XmlLayout

/-! # Reading what was written -/

set_option linter.unusedSectionVars false

namespace CLF
namespace XmlText

/-! ### Names and characters -/

theorem letter_nameStart (c : Char) (h : Spec.Letter c) : nameStart c = true ∧ c ≠ ':' := by
  unfold Spec.Letter at h
  constructor
  · simp only [nameStart, Bool.or_eq_true, Bool.and_eq_true, decide_eq_true_eq, Char.le_def,
      UInt32.le_iff_toNat_le, ← Char.toNat_val] at h ⊢
    rcases h with ⟨h1, h2⟩ | ⟨h1, h2⟩ | h | h
    · exact .inl (.inl (.inl (.inr ⟨h1, h2⟩)))
    · exact .inl (.inl (.inl (.inl ⟨h1, h2⟩)))
    · left; left; right
      exact Char.ext (UInt32.toNat_inj.mp h)
    · exact .inr h
  · rintro rfl
    revert h; decide

theorem plainName_valid (s : String) (h : Spec.PlainName s) : ValidName s.toList ∧ ':' ∉ s.toList := by
  obtain ⟨c, r, e, h1, h2⟩ := h
  have key : ∀ d ∈ c :: r, nameChar d = true ∧ d ≠ ':' := by
    intro d hd
    rcases h2 d hd with h | h | h | h
    · have := letter_nameStart d h
      exact ⟨by simp [nameChar, this.1], this.2⟩
    · constructor
      · simp only [nameChar, Bool.or_eq_true, Bool.and_eq_true, decide_eq_true_eq, Char.le_def,
          UInt32.le_iff_toNat_le, ← Char.toNat_val] at h ⊢
        exact .inl (.inl (.inr h))
      · rintro rfl; revert h; decide
    · subst h; decide
    · subst h; decide
  refine ⟨⟨c, r, e, (letter_nameStart c h1).1, fun d hd => (key d (e ▸ hd)).1⟩, ?_⟩
  rw [e]
  intro hm
  exact (key _ hm).2 rfl

theorem allowed_iff (c : Char) : xmlChar c = true ↔ Spec.Allowed c := by
  unfold xmlChar Spec.Allowed
  simp only [Bool.or_eq_true, Bool.and_eq_true, decide_eq_true_eq]
  have hv := c.valid
  have hv' : c.toNat < 0xD800 ∨ (0xDFFF < c.toNat ∧ c.toNat < 0x110000) := hv
  constructor
  · rintro (((((h | h) | h) | h) | h) | h)
    · exact .inl h
    · exact .inr (.inl h)
    · exact .inr (.inr (.inl h))
    · right; right; right; omega
    · right; right; right; omega
    · right; right; right; omega
  · rintro (h | h | h | h)
    · simp [h]
    · simp [h]
    · simp [h]
    · by_cases h1 : c.toNat < 0xD800
      · left; left; right; omega
      · by_cases h2 : c.toNat ≤ 0xFFFD
        · left; right; omega
        · right; omega

theorem everywhere_xmlChars (P : Char → Prop) (x : Xml) (h : Spec.Everywhere P x) : XmlChars P x := by
  induction x using Xml.ind with
  | h tag as text cs ih =>
    cases h with
    | mk h1 h2 h3 h4 =>
      refine .mk h1 h2 ?_ fun c hc => ih c hc (h4 c hc)
      intro s hs
      subst hs
      exact h3

theorem wellNamed_writable (x : Xml) (h : Spec.WellNamed x) : Writable x := by
  induction x using Xml.ind with
  | h tag as text cs ih =>
    cases h with
    | mk h1 h2 h3 h4 h5 =>
      exact .mk (plainName_valid _ h1).1 (fun kv hkv => (plainName_valid _ (h2 kv hkv).1).1) h3
        fun c hc => ih c hc (h5 c hc)

theorem wellNamed_unmixed (x : Xml) (h : Spec.WellNamed x) : Unmixed (domOf x) := by
  induction x using Xml.ind with
  | h tag as text cs ih =>
    cases h with
    | mk h1 h2 h3 h4 h5 =>
      rw [domOf]
      by_cases hc : cs = []
      · subst hc
        rw [domsOf, List.append_nil]
        split
        · exact .node (by simp) (by simp)
        · exact .leaf
      · rw [if_pos (by rw [h4 hc]; rfl), List.nil_append, domsOf_eq]
        refine .node ?_ ?_
        · intro d hd
          obtain ⟨c, _, rfl⟩ := List.mem_map.mp hd
          exact domOf_isText c
        · intro d hd
          obtain ⟨c, hc, rfl⟩ := List.mem_map.mp hd
          exact ih c hc (h5 c hc)

theorem unixLines_normEnds (t : Txt) : Spec.UnixLines t (normEnds t) := by
  induction t using normEnds.induct with
  | case1 => exact .nil
  | case2 r ih => rw [normEnds_crlf]; exact .crlf ih
  | case3 r h ih =>
    have hr : r.head? ≠ some '\n' := by
      intro e
      cases r with
      | nil => cases e
      | cons x r => simp at e; exact h r (by rw [e])
    rw [normEnds_cr r hr]; exact .cr hr ih
  | case4 c r h h' ih =>
    have hc : c ≠ '\r' := fun e => h' e
    rw [normEnds_cons c r hc]; exact .keep hc ih

theorem unixLines_unique {a b : Txt} (h : Spec.UnixLines a b) : b = normEnds a := by
  induction h with
  | nil => rfl
  | keep hc _ ih => rw [normEnds_cons _ _ hc, ih]
  | crlf _ ih => rw [normEnds_crlf, ih]
  | cr hr _ ih => rw [normEnds_cr _ hr, ih]

/-! ### Names without namespaces -/

theorem dropWhile_colon (n : Txt) (h : ':' ∉ n) : n.dropWhile (· ≠ ':') = [] := by
  rw [List.dropWhile_eq_nil_iff]
  intro c hc
  simp only [decide_eq_true_eq]
  rintro rfl; exact h hc

theorem declOf_none (kv : Txt × Txt) (h : ':' ∉ kv.1) (h' : kv.1 ≠ ['x', 'm', 'l', 'n', 's']) : declOf kv = none := by
  unfold declOf
  rw [if_neg h', if_neg]
  intro hp
  rw [List.isPrefixOf_iff_prefix] at hp
  obtain ⟨t, ht⟩ := hp
  apply h
  rw [← ht]; simp

/-- Attributes back from characters. -/
def attrStr (as : List (Txt × Txt)) : Dict String := as.map fun kv => (String.ofList kv.1, String.ofList kv.2)

theorem resolveAttrs_plain (env as : List (Txt × Txt)) (h : ∀ kv ∈ as, ':' ∉ kv.1 ∧ kv.1 ≠ ['x', 'm', 'l', 'n', 's']) :
    resolveAttrs env as = some (attrStr as) := by
  unfold resolveAttrs
  have e1 : as.filter (fun kv => (declOf kv).isNone) = as := by
    rw [List.filter_eq_self]
    intro kv hkv
    rw [declOf_none kv (h kv hkv).1 (h kv hkv).2]; rfl
  rw [e1]
  clear e1
  induction as with
  | nil => rfl
  | cons kv as ih =>
    have ih := ih fun kv hkv => h kv (List.mem_cons_of_mem _ hkv)
    rw [List.mapM_cons]
    have : qualify env true kv.1 = some kv.1 := by
      unfold qualify
      rw [dropWhile_colon _ (h kv (List.mem_cons_self ..)).1]; rfl
    rw [this, ih]
    rfl

theorem resolve_plain (tag : Txt) (as : List (Txt × Txt)) (cs : List Dom) (ht : ':' ∉ tag)
    (h : ∀ kv ∈ as, ':' ∉ kv.1 ∧ kv.1 ≠ ['x', 'm', 'l', 'n', 's']) (xs : List Xml) (hxs : resolveAll [] cs = some xs) :
    resolve [] (.elem tag as cs) = some [.mk (String.ofList tag) (attrStr as) (optText (leadText cs)) xs] := by
  have e1 : as.filterMap declOf = [] := by
    rw [List.filterMap_eq_nil_iff]
    exact fun kv hkv => declOf_none kv (h kv hkv).1 (h kv hkv).2
  have e2 : qualify [] false tag = some tag := by
    unfold qualify
    rw [dropWhile_colon _ ht]; rfl
  rw [resolve, e1, List.append_nil, resolveAttrs_plain [] as h, hxs, e2]
  rfl

/-- The document that is read. -/
def readBack (x : Xml) (n : ℕ) : Dom :=
  mapDom id (fun v => v.map blank) (indent n (mapDom normEnds (fun v => v.map spaced1) (domOf x)))

theorem sortAttrs_map (g : Txt → Txt) (as : List (Txt × Txt)) : (mapAttrs g (sortAttrs as)).Perm (mapAttrs g as) :=
  (sortAttrs_perm as).map _

theorem blank_spaced1 (c : Char) : blank (spaced1 c) = if c = '\t' ∨ c = '\n' ∨ c = '\r' then ' ' else c := by
  unfold blank spaced1 xmlSpace
  by_cases h1 : c = '\t'
  · subst h1; decide
  by_cases h2 : c = '\r'
  · subst h2; decide
  by_cases h3 : c = '\n'
  · subst h3; decide
  by_cases h4 : c = ' '
  · subst h4; decide
  simp [h1, h2, h3, h4]

theorem attrs_back (as : Dict String) :
    (attrStr (mapAttrs (fun v => v.map blank) (sortAttrs (mapAttrs (fun v => v.map spaced1) (sortAttrs (attrTxt as)))))).Perm
      (as.map fun kv => (kv.1, Spec.spaces kv.2)) := by
  have h1 : (mapAttrs (fun v => v.map blank) (sortAttrs (mapAttrs (fun v => v.map spaced1) (sortAttrs (attrTxt as))))).Perm
      (mapAttrs (fun v => v.map blank) (mapAttrs (fun v => v.map spaced1) (attrTxt as))) :=
    (sortAttrs_map _ _).trans ((sortAttrs_map _ _).map _)
  have h2 := h1.map fun kv : Txt × Txt => (String.ofList kv.1, String.ofList kv.2)
  refine h2.trans (List.Perm.of_eq ?_)
  simp only [mapAttrs, attrTxt, List.map_map]
  refine List.map_congr_left fun kv _ => ?_
  simp only [Function.comp_apply, String.ofList_toList, Spec.spaces, List.map_map]
  congr 3
  exact funext blank_spaced1

theorem resolveAll_indents (f g : Txt → Txt) (n : ℕ) (ds : List Dom) (xs : List Xml)
    (h : List.Forall₂ (fun d x => resolve [] (mapDom f g (indent (n + 1) d)) = some [x]) ds xs) :
    resolveAll [] (mapDoms f g (indents n ds)) = some xs := by
  induction h with
  | nil => simp [indents, mapDoms, mapDom, resolveAll, resolve]
  | cons h1 _ ih =>
    rw [indents, mapDoms, mapDoms, mapDom, resolveAll, resolveAll, h1, ih, resolve]
    rfl

theorem resolve_readBack (x : Xml) (h : Spec.WellNamed x) : ∀ n, ∃ y, resolve [] (readBack x n) = some [y] ∧ Spec.ReadAs x y := by
  induction x using Xml.ind with
  | h tag as text cs ih =>
    intro n
    cases h with
    | mk h1 h2 h3 h4 h5 =>
      have ht := (plainName_valid _ h1).2
      have hnames : ∀ kv ∈ mapAttrs (fun v => v.map blank) (sortAttrs (mapAttrs (fun v => v.map spaced1) (sortAttrs (attrTxt as)))),
          ':' ∉ kv.1 ∧ kv.1 ≠ ['x', 'm', 'l', 'n', 's'] := by
        intro kv hkv
        obtain ⟨kv1, g1, rfl⟩ := List.mem_map.mp hkv
        obtain ⟨kv2, g2, rfl⟩ := List.mem_map.mp ((sortAttrs_perm _).mem_iff.mp g1)
        obtain ⟨kv3, g3, rfl⟩ := List.mem_map.mp ((sortAttrs_perm _).mem_iff.mp g2)
        obtain ⟨p1, p2⟩ := h2 kv3 g3
        refine ⟨(plainName_valid _ p1).2, fun e => p2 ?_⟩
        exact String.toList_inj.mp (e.trans (by decide))
      have hperm := attrs_back as
      unfold readBack
      by_cases hc : cs = []
      · subst hc
        rw [domOf, domsOf, List.append_nil]
        by_cases htx : (text.getD "").toList = []
        · rw [if_pos htx, mapDom, mapDoms, indent, mapDom, mapDoms]
          refine ⟨_, resolve_plain _ _ [] ht hnames [] rfl, ?_⟩
          rw [String.ofList_toList]
          refine .mk hperm (fun _ => .inl ⟨String.toList_inj.mp htx, rfl⟩) (fun h => absurd rfl h) rfl (by simp)
        · rw [if_neg htx, mapDom, mapDoms, mapDoms, mapDom, indent, mapDom, mapDoms, mapDoms, mapDom]
          refine ⟨_, resolve_plain _ _ _ ht hnames [] rfl, ?_⟩
          rw [String.ofList_toList]
          refine .mk hperm (fun _ => .inr ⟨fun e => htx (by rw [e]; rfl), String.ofList (normEnds (text.getD "").toList), ?_, ?_⟩)
            (fun h => absurd rfl h) rfl (by simp)
          · simp only [leadText, List.append_nil, optText, id]
            rw [if_neg (normEnds_ne_nil _ htx)]
          · rw [String.toList_ofList]; exact unixLines_normEnds _
      · have htx : (text.getD "").toList = [] := by rw [h4 hc]; rfl
        obtain ⟨ys, hys⟩ : ∃ ys, List.Forall₂ (fun c y => resolve [] (readBack c (n + 1)) = some [y] ∧ Spec.ReadAs c y) cs ys := by
          clear hnames hperm h4 hc
          induction cs with
          | nil => exact ⟨[], .nil⟩
          | cons c cs ih2 =>
            obtain ⟨ys, hys⟩ := ih2 (fun d hd => ih d (List.mem_cons_of_mem _ hd)) (fun d hd => h5 d (List.mem_cons_of_mem _ hd))
            obtain ⟨y, hy⟩ := ih c (List.mem_cons_self ..) (h5 c (List.mem_cons_self ..)) (n + 1)
            exact ⟨y :: ys, .cons hy hys⟩
        have hz := List.forall₂_iff_zip.mp hys
        have hres : resolveAll [] (mapDoms id (fun v => v.map blank) (indents n
            ((domsOf cs).map (mapDom normEnds (fun v => v.map spaced1))))) = some ys := by
          refine resolveAll_indents _ _ n _ ys ?_
          rw [domsOf_eq, List.map_map, List.forall₂_map_left_iff]
          exact hys.imp fun c y h => h.1
        rw [domOf, if_pos htx, List.nil_append, mapDom, mapDoms_eq]
        obtain ⟨c, cs', rfl⟩ := List.exists_cons_of_ne_nil hc
        have hne : (domsOf (c :: cs')).map (mapDom normEnds (fun v => v.map spaced1)) =
            mapDom normEnds (fun v => v.map spaced1) (domOf c) :: (domsOf cs').map (mapDom normEnds (fun v => v.map spaced1)) := by
          rw [domsOf]; rfl
        rw [hne] at hres ⊢
        rw [indent_node n _ _ _ _ (by rw [mapDom_isText]; exact domOf_isText c), mapDom]
        refine ⟨_, resolve_plain _ _ _ ht hnames ys hres, ?_⟩
        rw [String.ofList_toList]
        refine .mk hperm (fun h => absurd h hc) (fun _ => ⟨String.ofList ('\n' :: tabs (n + 1)), ?_, ?_⟩) hz.1
          fun p hp => by obtain ⟨u, v⟩ := p; exact (hz.2 hp).2
        · rw [indents, mapDoms, mapDoms, mapDom]
          have : ∀ d r, isText d = false → leadText (.text ('\n' :: tabs (n + 1)) :: d :: r) = '\n' :: tabs (n + 1) := by
            intro d r hd
            cases d with
            | text t => cases hd
            | elem => simp [leadText]
          rw [id, this _ _ (by rw [mapDom_isText, indent_isText, mapDom_isText]; exact domOf_isText c)]
          rfl
        · intro d hd
          rw [String.toList_ofList] at hd
          rcases List.mem_cons.mp hd with h | h
          · exact .inl h
          · exact .inr (List.eq_of_mem_replicate h)

theorem CharsIn.both {P Q : Char → Prop} {d : Dom} (h : CharsIn P d) (h' : CharsIn Q d) :
    CharsIn (fun c => P c ∧ Q c) d := by
  induction d using Dom.ind with
  | ht t =>
    cases h with | text h => cases h' with | text h' => exact .text fun c hc => ⟨h c hc, h' c hc⟩
  | he tag as cs ih =>
    cases h with
    | elem h1 h2 h3 =>
      cases h' with
      | elem g1 g2 g3 =>
        exact .elem (fun c hc => ⟨h1 c hc, g1 c hc⟩)
          (fun kv hkv => ⟨fun c hc => ⟨(h2 kv hkv).1 c hc, (g2 kv hkv).1 c hc⟩,
            fun c hc => ⟨(h2 kv hkv).2 c hc, (g2 kv hkv).2 c hc⟩⟩)
          fun d hd => ih d hd (h3 d hd) (g3 d hd)

theorem noCr_read (d : Dom) (h : Good d) : CharsIn (fun c => c ≠ '\r') (mapDom normEnds (fun v => v.map spaced1) d) := by
  induction d using Dom.ind with
  | ht t =>
    rw [mapDom]
    exact .text fun c hc e => normEnds_noCr t (e ▸ hc)
  | he tag as cs ih =>
    obtain ⟨h1, h2, h3, h4, h5⟩ := h
    rw [goods_iff] at h5
    rw [mapDom]
    refine .elem (fun c hc e => validName_noCr _ h1 (e ▸ hc)) ?_ ?_
    · intro kv hkv
      obtain ⟨kv', hk, rfl⟩ := List.mem_map.mp hkv
      refine ⟨fun c hc e => validName_noCr _ (h2 kv' hk) (e ▸ hc), ?_⟩
      intro c hc
      obtain ⟨e, _, rfl⟩ := List.mem_map.mp hc
      unfold spaced1
      split
      · decide
      · rename_i hn; exact fun e => hn (.inr e)
    · intro d hd
      rw [mapDoms_eq] at hd
      obtain ⟨e, he, rfl⟩ := List.mem_map.mp hd
      exact ih e he (h5 e he)

theorem charsIn_domOf1 (x : Xml) (hw : Writable x) (h : XmlChars (fun c => xmlChar c = true) x) :
    CharsIn (fun c => xmlChar c = true ∧ c ≠ '\r') (mapDom normEnds (fun v => v.map spaced1) (domOf x)) := by
  refine CharsIn.both ?_ (noCr_read _ (good_domOf x hw))
  refine charsIn_map (fun c => xmlChar c = true) _ (fun _ h => h) _ _ ?_ ?_ _ (charsIn_domOf _ x h)
  · intro t ht c hc
    rcases mem_normEnds _ c hc with h | rfl
    · exact ht c h
    · decide
  · intro t ht c hc
    obtain ⟨e, he, rfl⟩ := List.mem_map.mp hc
    unfold spaced1
    split
    · decide
    · exact ht e he

theorem allowed_chars (x : Xml) (h : Spec.Everywhere Spec.Allowed x) : XmlChars (fun c => xmlChar c = true) x := by
  have : Spec.Allowed = fun c => xmlChar c = true := funext fun c => propext (allowed_iff c).symm
  rw [this] at h
  exact everywhere_xmlChars _ x h

/-- The text that is written for an element. -/
theorem prettify_text (x : Xml) (hn : Spec.WellNamed x) (hc : Spec.Everywhere Spec.Allowed x) :
    xmlPrettify x = .ok ("<?xml version=\"1.0\" ?>\n".toList ++
      pretty 0 (mapDom normEnds (fun v => v.map spaced1) (domOf x))) := by
  have hw := wellNamed_writable x hn
  unfold xmlPrettify
  rw [parse_tostring x hw (allowed_chars x hc)]
  have hr : ∃ z, resolve [] (mapDom normEnds (fun v => v.map spaced1) (domOf x)) = some z := by
    clear hw hc
    induction x using Xml.ind with
    | h tag as text cs ih =>
      cases hn with
      | mk h1 h2 h3 h4 h5 =>
        have hnames : ∀ kv ∈ mapAttrs (fun v => v.map spaced1) (sortAttrs (attrTxt as)),
            ':' ∉ kv.1 ∧ kv.1 ≠ ['x', 'm', 'l', 'n', 's'] := by
          intro kv hkv
          obtain ⟨kv2, g2, rfl⟩ := List.mem_map.mp hkv
          obtain ⟨kv3, g3, rfl⟩ := List.mem_map.mp ((sortAttrs_perm _).mem_iff.mp g2)
          obtain ⟨p1, p2⟩ := h2 kv3 g3
          refine ⟨(plainName_valid _ p1).2, fun e => p2 ?_⟩
          exact String.toList_inj.mp (e.trans (by decide))
        have hall : ∀ ds : List Dom, (∀ d ∈ ds, ∃ z, resolve [] d = some z) → ∃ zs, resolveAll [] ds = some zs := by
          intro ds hds
          induction ds with
          | nil => exact ⟨[], rfl⟩
          | cons d ds ih2 =>
            obtain ⟨z, hz⟩ := hds d (List.mem_cons_self ..)
            obtain ⟨zs, hzs⟩ := ih2 fun e he => hds e (List.mem_cons_of_mem _ he)
            exact ⟨z ++ zs, by rw [resolveAll, hz, hzs]; rfl⟩
        rw [domOf, mapDom, mapDoms_eq]
        obtain ⟨zs, hzs⟩ := hall (((if (text.getD "").toList = [] then [] else [Dom.text (text.getD "").toList]) ++
            domsOf cs).map (mapDom normEnds fun v => v.map spaced1)) (by
          intro d hd
          obtain ⟨e, he, rfl⟩ := List.mem_map.mp hd
          rcases List.mem_append.mp he with he | he
          · split at he
            · cases he
            · rw [List.mem_singleton.mp he, mapDom]; exact ⟨[], by rw [resolve]⟩
          · rw [domsOf_eq] at he
            obtain ⟨c, hc, rfl⟩ := List.mem_map.mp he
            exact ih c hc (h5 c hc))
        exact ⟨_, resolve_plain _ _ _ (plainName_valid _ h1).2 hnames zs hzs⟩
  obtain ⟨z, hz⟩ := hr
  simp only [hz]

/-- What is read from it. -/
theorem prettify_parse (x : Xml) (hn : Spec.WellNamed x) (hc : Spec.Everywhere Spec.Allowed x) :
    ∃ t y, xmlPrettify x = .ok t ∧ parse t = .ok y ∧ Spec.ReadAs x y := by
  have hw := wellNamed_writable x hn
  obtain ⟨y, hy, hxy⟩ := resolve_readBack x hn 0
  refine ⟨_, y, prettify_text x hn hc, ?_, hxy⟩
  unfold parse
  rw [parse_pretty _ (good_map _ _ (fun t ht => normEnds_ne_nil t ht) _ (good_domOf x hw)) (unmixed_map _ _ _ (wellNamed_unmixed x hn))
    (charsIn_domOf1 x hw (allowed_chars x hc))]
  unfold readBack at hy
  simp only [Option.bind_some, hy]

end XmlText
end CLF
