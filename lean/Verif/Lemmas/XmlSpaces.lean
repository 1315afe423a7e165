import Verif.Lemmas.XmlChars

/-! # Declaring a namespace -/

set_option linter.unusedSectionVars false

namespace CLF.XmlText

/-- No prefixes, no declarations, no braces in tags. -/
inductive Colonless : Dom → Prop
  | text {t : Txt} : Colonless (.text t)
  | elem {tag : Txt} {as : List (Txt × Txt)} {cs : List Dom} : ':' ∉ tag → '}' ∉ tag →
      (∀ kv ∈ as, ':' ∉ kv.1 ∧ kv.1 ≠ ['x', 'm', 'l', 'n', 's']) → (∀ c ∈ cs, Colonless c) → Colonless (.elem tag as cs)

theorem elementType_brace (u tag : Txt) (hu : '}' ∉ u) (ht : '}' ∉ tag) :
    elementType (String.ofList tag) = elementType (String.ofList ('{' :: u ++ '}' :: tag)) := by
  have h1 : afterBrace tag = tag := by
    unfold afterBrace
    rw [List.dropWhile_eq_nil_iff.mpr]
    intro c hc
    simp only [decide_eq_true_eq]
    rintro rfl; exact ht hc
  have h2 : afterBrace ('{' :: u ++ '}' :: tag) = tag := by
    unfold afterBrace
    rw [List.dropWhile_append_of_pos]
    · simp
    · intro c hc
      simp only [decide_eq_true_eq]
      rintro rfl
      rcases List.mem_cons.mp hc with h | h
      · revert h; decide
      · exact hu h
  unfold elementType
  rw [String.toList_ofList, String.toList_ofList, h1, h2]

theorem resolve_space (u : Txt) (hu : u ≠ []) (hb : '}' ∉ u) (d : Dom) (h : Colonless d) :
    ∃ zs zs', resolve [] d = some zs ∧ resolve [([], u)] d = some zs' ∧ List.Forall₂ Spec.Alike zs zs' := by
  induction d using Dom.ind with
  | ht t => exact ⟨[], [], by rw [resolve], by rw [resolve], .nil⟩
  | he tag as cs ih =>
    cases h with
    | elem h1 h2 h3 h4 =>
      have hall : ∃ zs zs', resolveAll [] cs = some zs ∧ resolveAll [([], u)] cs = some zs' ∧ List.Forall₂ Spec.Alike zs zs' := by
        clear h3
        induction cs with
        | nil => exact ⟨[], [], by rw [resolveAll], by rw [resolveAll], .nil⟩
        | cons c cs ih2 =>
          obtain ⟨z, z', g1, g2, g3⟩ := ih c (List.mem_cons_self ..) (h4 c (List.mem_cons_self ..))
          obtain ⟨zs, zs', k1, k2, k3⟩ := ih2 (fun d hd => ih d (List.mem_cons_of_mem _ hd)) fun d hd => h4 d (List.mem_cons_of_mem _ hd)
          refine ⟨z ++ zs, z' ++ zs', ?_, ?_, List.rel_append g3 k3⟩
          · rw [resolveAll, g1, k1]; rfl
          · rw [resolveAll, g2, k2]; rfl
      obtain ⟨xs, xs', g1, g2, g3⟩ := hall
      have e1 : as.filterMap declOf = [] := by
        rw [List.filterMap_eq_nil_iff]
        exact fun kv hkv => declOf_none kv (h3 kv hkv).1 (h3 kv hkv).2
      have e2 : qualify [([], u)] false tag = some ('{' :: u ++ '}' :: tag) := by
        unfold qualify
        rw [dropWhile_colon _ h1]
        cases u with
        | nil => exact absurd rfl hu
        | cons c r => rfl
      refine ⟨_, [.mk (String.ofList ('{' :: u ++ '}' :: tag)) (attrStr as) (optText (leadText cs)) xs'],
        resolve_plain tag as cs h1 h3 xs g1, ?_, .cons ?_ .nil⟩
      · rw [resolve, e1, List.nil_append, resolveAttrs_plain _ as h3, g2, e2]
        rfl
      · rw [alike_iff]
        exact ⟨elementType_brace u tag hb h2, rfl, rfl, g3⟩

theorem colonless_map (f g : Txt → Txt) (d : Dom) (h : Colonless d) : Colonless (mapDom f g d) := by
  induction d using Dom.ind with
  | ht t => rw [mapDom]; exact .text
  | he tag as cs ih =>
    cases h with
    | elem h1 h2 h3 h4 =>
      rw [mapDom, mapDoms_eq]
      refine .elem h1 h2 ?_ ?_
      · intro kv hkv
        obtain ⟨kv', hk, rfl⟩ := List.mem_map.mp hkv
        exact h3 kv' hk
      · intro c hc
        obtain ⟨e, he, rfl⟩ := List.mem_map.mp hc
        exact ih e he (h4 e he)

theorem colonless_indent (d : Dom) (h : Colonless d) (hu : Unmixed d) : ∀ n, Colonless (indent n d) := by
  induction d using Dom.ind with
  | ht t => cases hu
  | he tag as cs ih =>
    intro n
    cases h with
    | elem h1 h2 h3 h4 =>
      have h3' : ∀ kv ∈ sortAttrs as, ':' ∉ kv.1 ∧ kv.1 ≠ ['x', 'm', 'l', 'n', 's'] :=
        fun kv hkv => h3 kv ((sortAttrs_perm as).mem_iff.mp hkv)
      cases hu with
      | leaf => rw [indent]; exact .elem h1 h2 h3' h4
      | node g1 g2 =>
        cases cs with
        | nil => rw [indent]; exact .elem h1 h2 h3' h4
        | cons c cs =>
          rw [indent_node n tag as c cs (g1 c (List.mem_cons_self ..)), indents_eq]
          refine .elem h1 h2 h3' ?_
          intro e he
          rcases List.mem_append.mp he with he | he
          · obtain ⟨k, hk, he⟩ := List.mem_flatMap.mp he
            simp only [List.mem_cons, List.not_mem_nil, or_false] at he
            rcases he with rfl | rfl
            · exact .text
            · exact ih k hk (h4 k hk) (g2 k hk) (n + 1)
          · rw [List.mem_singleton.mp he]; exact .text

theorem plainName_brace (s : String) (h : Spec.PlainName s) : '}' ∉ s.toList := by
  obtain ⟨c, r, hs, _, h⟩ := h
  rw [hs]
  intro hm
  rcases h _ hm with h | h | h | h
  · revert h; unfold Spec.Letter; decide
  · revert h; decide
  · revert h; decide
  · revert h; decide

theorem colonless_domOf (x : Xml) (h : Spec.WellNamed x) : Colonless (domOf x) := by
  induction x using Xml.ind with
  | h tag as text cs ih =>
    cases h with
    | mk h1 h2 h3 h4 h5 =>
      rw [domOf]
      refine .elem (plainName_valid _ h1).2 (plainName_brace _ h1) ?_ ?_
      · intro kv hkv
        obtain ⟨kv', hk, rfl⟩ := List.mem_map.mp ((sortAttrs_perm _).mem_iff.mp hkv)
        refine ⟨(plainName_valid _ (h2 kv' hk).1).2, fun e => (h2 kv' hk).2 ?_⟩
        exact String.toList_inj.mp (e.trans (by decide))
      · intro c hc
        rcases List.mem_append.mp hc with hc | hc
        · split at hc
          · cases hc
          · rw [List.mem_singleton.mp hc]; exact .text
        · rw [domsOf_eq] at hc
          obtain ⟨e, he, rfl⟩ := List.mem_map.mp hc
          exact ih e he (h5 e he)

theorem spaceName_escape (u : Txt) (h : Spec.SpaceName u) : u.flatMap escapeData = u ∧ u.map blank = u ∧ '}' ∉ u ∧
    ∀ c ∈ u, xmlChar c = true ∧ c ≠ '\r' := by
  have h := h.2
  refine ⟨?_, ?_, fun hm => (h _ hm).2.2 (by decide), ?_⟩
  · conv_rhs => rw [← List.flatMap_singleton' u]
    refine List.flatMap_congr fun c hc => ?_
    obtain ⟨_, _, hn⟩ := h c hc
    simp only [List.mem_cons, List.not_mem_nil, or_false, not_or] at hn
    unfold escapeData escapeText
    rw [if_neg hn.2.2.2.1, if_neg hn.1, if_neg hn.2.1, if_neg hn.2.2.1]
  · conv_rhs => rw [← List.map_id u]
    refine List.map_congr_left fun c hc => ?_
    obtain ⟨h1, _, _⟩ := h c hc
    unfold blank
    split
    · rename_i e
      unfold xmlSpace at e
      simp only [Bool.or_eq_true, decide_eq_true_eq] at e
      rcases e with ((rfl | rfl) | rfl) | rfl
      · rfl
      · revert h1; decide
      · revert h1; decide
      · revert h1; decide
    · rfl
  · intro c hc
    obtain ⟨h1, h2, _⟩ := h c hc
    refine ⟨?_, ?_⟩
    · rw [allowed_iff]; right; right; right; omega
    · rintro rfl; revert h1; decide

/-- The first tag with and without a namespace. -/
theorem parse_space (x : Xml) (hn : Spec.WellNamed x) (hc : Spec.Everywhere Spec.Allowed x) (u t t' : Txt)
    (hu : Spec.SpaceName u) (ht : xmlPrettify x = .ok t) (hd : Spec.Declares x.tag.toList u t t') :
    ∃ y y', parse t = .ok y ∧ parse t' = .ok y' ∧ Spec.Alike y y' := by
  cases x with
  | mk tag as text cs =>
    obtain ⟨r, hr, hr'⟩ := hd
    have hr : t = "<?xml version=\"1.0\" ?>\n<".toList ++ tag.toList ++ r := hr
    have hr' : t' = "<?xml version=\"1.0\" ?>\n<".toList ++ tag.toList ++ " xmlns=\"".toList ++ u ++ ['"'] ++ r := hr'
    have hw := wellNamed_writable _ hn
    rw [prettify_text _ hn hc] at ht
    injection ht with ht
    set d : Dom := mapDom normEnds (fun v => v.map spaced1) (domOf (.mk tag as text cs)) with hdd
    have hu' : Unmixed d := unmixed_map _ _ _ (wellNamed_unmixed _ hn)
    have hg : Good (indent 0 d) := good_indent _ (good_map _ _ (fun t ht => normEnds_ne_nil t ht) _ (good_domOf _ hw)) hu' 0
    have hcl : Colonless (indent 0 d) := colonless_indent _ (colonless_map _ _ _ (colonless_domOf _ hn)) hu' 0
    have hch : CharsIn (fun c => xmlChar c = true ∧ c ≠ '\r') (indent 0 d) :=
      charsIn_indent _ (by decide) _ (charsIn_domOf1 _ hw (allowed_chars _ hc)) hu' 0
    have hshape : ∃ bs ds, indent 0 d = .elem tag.toList bs ds := by
      rw [hdd, domOf, mapDom]
      generalize mapDoms normEnds (fun v => v.map spaced1) _ = q
      cases q with
      | nil => rw [indent]; exact ⟨_, _, rfl⟩
      | cons c q =>
        cases c with
        | elem a b e => rw [indent_node _ _ _ _ _ rfl]; exact ⟨_, _, rfl⟩
        | text s =>
          cases q with
          | nil => rw [indent]; exact ⟨_, _, rfl⟩
          | cons e q => rw [indent] <;> simp
    rw [pretty_render d hu' 0] at ht
    obtain ⟨bs, ds, hbs⟩ := hshape
    rw [hbs] at hg hcl hch ht
    obtain ⟨e1, e2, e3, e4⟩ := spaceName_escape u hu
    cases hcl with
    | elem c1 c2 c3 c4 =>
    have hx : ValidName ['x', 'm', 'l', 'n', 's'] := ⟨'x', ['m', 'l', 'n', 's'], rfl, by decide, by decide⟩
    have hg' : Good (.elem tag.toList ((['x', 'm', 'l', 'n', 's'], u) :: bs) ds) := by
      rw [Good] at hg ⊢
      refine ⟨hg.1, ?_, ?_, hg.2.2.2⟩
      · intro kv hkv
        rcases List.mem_cons.mp hkv with rfl | hkv
        · exact hx
        · exact hg.2.1 kv hkv
      · rw [List.map_cons, List.nodup_cons]
        refine ⟨fun hm => ?_, hg.2.2.1⟩
        obtain ⟨kv, hkv, he⟩ := List.mem_map.mp hm
        exact (c3 kv hkv).2 he
    have hch' : CharsIn (fun c => xmlChar c = true ∧ c ≠ '\r') (.elem tag.toList ((['x', 'm', 'l', 'n', 's'], u) :: bs) ds) := by
      cases hch with
      | elem k1 k2 k3 =>
        refine .elem k1 ?_ k3
        intro kv hkv
        rcases List.mem_cons.mp hkv with rfl | hkv
        · have : ∀ c ∈ ['x', 'm', 'l', 'n', 's'], xmlChar c = true ∧ c ≠ '\r' := by decide
          exact ⟨this, e4⟩
        · exact k2 kv hkv
    have ht1 : t = "<?xml version=\"1.0\" ?>\n".toList ++ render [] (escDom (.elem tag.toList bs ds)) ++ ['\n'] := by
      rw [← ht]; simp [tabs]
    have hrr : ∃ r0, render [] (escDom (.elem tag.toList bs ds)) = '<' :: (tag.toList ++ r0) ∧
        render [] (escDom (.elem tag.toList ((['x', 'm', 'l', 'n', 's'], u) :: bs) ds)) =
          '<' :: (tag.toList ++ (" xmlns=\"".toList ++ u ++ ['"'] ++ r0)) := by
      obtain ⟨F, hF⟩ : ∃ F : Txt, ∀ as, render [] (.elem tag.toList as
          (mapDoms (fun t => t.flatMap escapeData) (fun v => v.flatMap escapeData) ds)) =
          '<' :: (tag.toList ++ (renderAttrs as ++ F)) := by
        refine ⟨if (mapDoms (fun t => t.flatMap escapeData) (fun v => v.flatMap escapeData) ds).isEmpty then
          [] ++ ['/', '>'] else '>' :: renders [] (mapDoms (fun t => t.flatMap escapeData)
            (fun v => v.flatMap escapeData) ds) ++ '<' :: '/' :: tag.toList ++ ['>'], fun as => ?_⟩
        rw [render]
        simp only [List.cons_append, List.append_assoc]
      refine ⟨renderAttrs (mapAttrs (fun v => v.flatMap escapeData) bs) ++ F, ?_, ?_⟩
      · unfold escDom
        rw [mapDom, hF]
      · unfold escDom
        rw [mapDom, hF]
        have : mapAttrs (fun v => v.flatMap escapeData) ((['x', 'm', 'l', 'n', 's'], u) :: bs) =
            (['x', 'm', 'l', 'n', 's'], u) :: mapAttrs (fun v => v.flatMap escapeData) bs := by
          unfold mapAttrs
          rw [List.map_cons]
          simp only [e1]
        rw [this]
        simp [renderAttrs]
    obtain ⟨r0, hr0, hr0'⟩ := hrr
    have hsame : r = r0 ++ ['\n'] := by
      have := hr.symm.trans ht1
      rw [hr0] at this
      have h2 : "<?xml version=\"1.0\" ?>\n<".toList = "<?xml version=\"1.0\" ?>\n".toList ++ ['<'] := by decide
      rw [h2] at this
      simpa using this
    have ht2 : t' = "<?xml version=\"1.0\" ?>\n".toList ++
        render [] (escDom (.elem tag.toList ((['x', 'm', 'l', 'n', 's'], u) :: bs) ds)) ++ ['\n'] := by
      have h2 : "<?xml version=\"1.0\" ?>\n<".toList = "<?xml version=\"1.0\" ?>\n".toList ++ ['<'] := by decide
      rw [hr', hr0', hsame, h2]
      simp
    have p1 := parse_laid _ hg rfl hch
    have p2 := parse_laid _ hg' rfl hch'
    rw [← ht1] at p1
    rw [← ht2] at p2
    have hcl2 : Colonless (mapDom id (fun v => v.map blank) (.elem tag.toList bs ds)) :=
      colonless_map _ _ _ (.elem c1 c2 c3 c4)
    obtain ⟨zs, zs', z1, z2, z3⟩ := resolve_space u hu.1 e3 _ hcl2
    have hroot : resolve [] (mapDom id (fun v => v.map blank) (.elem tag.toList ((['x', 'm', 'l', 'n', 's'], u) :: bs) ds)) =
        resolve [([], u)] (mapDom id (fun v => v.map blank) (.elem tag.toList bs ds)) := by
      cases hcl2 with
      | elem k1 k2 k3 k4 =>
        rw [mapDom, mapDom, resolve, resolve]
        have q0 : mapAttrs (fun v => v.map blank) ((['x', 'm', 'l', 'n', 's'], u) :: bs) =
            (['x', 'm', 'l', 'n', 's'], u) :: mapAttrs (fun v => v.map blank) bs := by
          unfold mapAttrs
          rw [List.map_cons]
          simp only [e2]
        have q1 : (mapAttrs (fun v => v.map blank) bs).filterMap declOf = [] := by
          rw [List.filterMap_eq_nil_iff]
          exact fun kv hkv => declOf_none kv (k3 kv hkv).1 (k3 kv hkv).2
        have q2 : declOf (['x', 'm', 'l', 'n', 's'], u) = some ([], u) := by unfold declOf; rw [if_pos rfl]
        have q3 : ∀ env l, resolveAttrs env ((['x', 'm', 'l', 'n', 's'], u) :: l) = resolveAttrs env l := by
          intro env l
          unfold resolveAttrs
          rw [List.filter_cons_of_neg (by rw [q2]; simp)]
        rw [q0, List.filterMap_cons_some q2, q1, q3]
        rfl
    have hone : ∃ z, zs = [z] := by
      rw [mapDom, resolve] at z1
      simp only [Option.bind_eq_bind, Option.bind_eq_some_iff] at z1
      obtain ⟨_, _, _, _, _, _, h⟩ := z1
      exact ⟨_, (Option.some.inj h).symm⟩
    obtain ⟨z, rfl⟩ := hone
    cases z3 with
    | cons z4 z5 =>
      cases z5
      refine ⟨_, _, ?_, ?_, z4⟩
      · unfold parse
        rw [p1, Option.bind_some, z1]
      · unfold parse
        rw [p2, Option.bind_some, hroot, z2]

end CLF.XmlText

/-! ### Comparing documents -/

namespace CLF

mutual
/-- Comparison of documents. -/
def Xml.same : Xml → Xml → Bool
  | .mk t a s cs, .mk t' a' s' cs' => decide (t = t') && decide (a = a') && decide (s = s') && Xml.sameAll cs cs'
/-- See `Xml.same`. -/
def Xml.sameAll : List Xml → List Xml → Bool
  | [], [] => true
  | c :: cs, c' :: cs' => Xml.same c c' && Xml.sameAll cs cs'
  | _, _ => false
end

theorem Xml.same_eq (x : Xml) : ∀ y, Xml.same x y = true → x = y := by
  induction x using Xml.ind with
  | h t a s cs ih =>
    intro y h
    cases y with
    | mk t' a' s' cs' =>
      rw [Xml.same] at h
      simp only [Bool.and_eq_true, decide_eq_true_eq] at h
      obtain ⟨⟨⟨rfl, rfl⟩, rfl⟩, h⟩ := h
      congr 1
      induction cs generalizing cs' with
      | nil => cases cs' with
        | nil => rfl
        | cons => rw [Xml.sameAll] at h; cases h; all_goals simp
      | cons c cs ih2 =>
        cases cs' with
        | nil => rw [Xml.sameAll] at h; cases h; all_goals simp
        | cons c' cs' =>
          rw [Xml.sameAll, Bool.and_eq_true] at h
          rw [ih c (List.mem_cons_self ..) c' h.1, ih2 (fun d hd => ih d (List.mem_cons_of_mem _ hd)) cs' h.2]

theorem XmlText.parse_eq (t : Txt) (x : Xml)
    (h : (match XmlText.parse t with | .ok y => Xml.same y x | .error _ => false) = true) : XmlText.parse t = .ok x := by
  cases hp : XmlText.parse t with
  | error e => rw [hp] at h; cases h
  | ok y => rw [hp] at h; rw [Xml.same_eq y x h]

end CLF
