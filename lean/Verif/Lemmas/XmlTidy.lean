import Verif.Lemmas.XmlSame

/-! # Written documents are plain -/

set_option linter.unusedSectionVars false

namespace CLF

variable {K : Type} [Field K] [LinearOrder K] [IsStrictOrderedRing K] [FloorRing K]

/-- Documents that survive writing and reading. -/
inductive Tidy : Xml → Prop
  | mk {tag : String} {as : Dict String} {text : Option String} {cs : List Xml} : Spec.AsciiName tag →
      (∀ kv ∈ as, Spec.AsciiName kv.1 ∧ Spec.Line kv.2) → (as.map Prod.fst).Nodup →
      (cs ≠ [] → text = none ∧ elementType tag ∉ textNames) → (∀ s, text = some s → Spec.Lines s) →
      (∀ c ∈ cs, Tidy c) → Tidy (.mk tag as text cs)

theorem tidy_wellNamed (x : Xml) (h : Tidy x) : Spec.WellNamed x := by
  induction x using Xml.ind with
  | h tag as text cs ih =>
    cases h with
    | mk h1 h2 h3 h4 h5 h6 =>
      exact .mk h1.1 (fun kv hkv => ⟨(h2 kv hkv).1.1, (h2 kv hkv).1.2.1⟩) h3 (fun hc => by rw [(h4 hc).1]; rfl)
        fun c hc => ih c hc (h6 c hc)

theorem tidy_everywhere (P : Char → Prop) (hP : ∀ c : Char, c = '\t' ∨ c = '\n' ∨ (32 ≤ c.toNat ∧ c.toNat < 127) → P c)
    (x : Xml) (h : Tidy x) : Spec.Everywhere P x := by
  have hL : ∀ s, Spec.Line s → ∀ c ∈ s.toList, P c := fun s hs c hc => hP c (.inr (.inr (hs c hc)))
  induction x using Xml.ind with
  | h tag as text cs ih =>
    cases h with
    | mk h1 h2 h3 h4 h5 h6 =>
      refine .mk (hL _ h1.2.2) (fun kv hkv => ⟨hL _ (h2 kv hkv).1.2.2, hL _ (h2 kv hkv).2⟩) ?_ fun c hc => ih c hc (h6 c hc)
      intro c hc
      cases text with
      | none => simp at hc
      | some s => exact hP c (h5 s rfl c hc)

theorem spaces_line (s : String) (h : Spec.Line s) : Spec.spaces s = s := by
  unfold Spec.spaces
  have : s.toList.map (fun c => if c = '\t' ∨ c = '\n' ∨ c = '\r' then ' ' else c) = s.toList := by
    conv_rhs => rw [← List.map_id s.toList]
    refine List.map_congr_left fun c hc => ?_
    rw [if_neg]
    · rfl
    · rintro (rfl | rfl | rfl)
      · exact absurd (h _ hc).1 (by decide)
      · exact absurd (h _ hc).1 (by decide)
      · exact absurd (h _ hc).1 (by decide)
  rw [this, String.ofList_toList]

theorem get?_perm {α : Type} (d d' : Dict α) (h : d'.Perm d) (hn : (d.map Prod.fst).Nodup) (k : String) :
    d.get? k = d'.get? k := by
  have hn' : (d'.map Prod.fst).Nodup := ((h.map Prod.fst).nodup_iff).mpr hn
  cases hk : d'.get? k with
  | none =>
    rw [Dict.get?_eq_none] at hk ⊢
    rwa [(h.map Prod.fst).mem_iff] at hk
  | some v =>
    exact Dict.get?_of_mem d hn k v (h.mem_iff.mp (Dict.mem_of_get? d' k v hk))

theorem textRead_plain (a b : Option String) (h : Spec.TextRead a b) (hl : ∀ s, a = some s → Spec.Lines s) :
    Xml.normText a = b := by
  cases a with
  | none =>
    rcases h with ⟨_, h⟩ | ⟨h, _⟩
    · rw [h]; rfl
    · exact absurd rfl h
  | some s =>
    rcases h with ⟨h1, h⟩ | ⟨h, u, rfl, hu⟩
    · have : s = "" := h1
      rw [h, this]; rfl
    · have hs : s ≠ "" := h
      have hu := XmlText.unixLines_unique hu
      rw [XmlText.normEnds_id _ (by
        intro hm
        have := hl s rfl _ hm
        revert this; decide)] at hu
      simp only [Xml.normText]
      rw [if_neg hs]
      congr 1
      exact String.toList_inj.mp hu.symm

theorem near_readAs (x : Xml) (h : Tidy x) : ∀ y, Spec.ReadAs x y → Near x.reparse y := by
  induction x using Xml.ind with
  | h tag as text cs ih =>
    intro y hy
    cases h with
    | mk h1 h2 h3 h4 h5 h6 =>
      cases hy with
      | mk g1 g2 g3 g4 g5 =>
        rename_i as' text' cs'
        have hperm : as'.Perm as := by
          refine g1.trans (List.Perm.of_eq ?_)
          conv_rhs => rw [← List.map_id as]
          refine List.map_congr_left fun kv hkv => ?_
          rw [spaces_line _ (h2 kv hkv).2]; rfl
        rw [reparse_mk]
        refine .mk h3 (((hperm.map Prod.fst).nodup_iff).mpr h3) (get?_perm as as' hperm h3) ?_ ?_
        · by_cases hc : cs = []
          · exact .inl (textRead_plain _ _ (g2 hc) h5)
          · exact .inr (h4 hc).2
        · rw [List.forall₂_map_left_iff]
          clear g2 g3 h4
          have hz : List.Forall₂ Spec.ReadAs cs cs' := List.forall₂_iff_zip.mpr ⟨g4, fun {a b} hab => g5 (a, b) hab⟩
          have hz' := forall₂_mem hz
          exact hz'.imp fun a b hab => ih a hab.1 (h6 a hab.1) b hab.2

/-! ### Numbers -/

/-- Printable characters. -/
def Prints (t : Txt) : Prop := ∀ c ∈ t, 32 ≤ c.toNat ∧ c.toNat < 127

theorem Prints.append {a b : Txt} (ha : Prints a) (hb : Prints b) : Prints (a ++ b) := by
  intro c hc
  rcases List.mem_append.mp hc with h | h
  exacts [ha c h, hb c h]

theorem Prints.sub {a b : Txt} (ha : Prints a) (h : ∀ c ∈ b, c ∈ a) : Prints b := fun c hc => ha c (h c hc)

theorem Prints.take {a : Txt} (ha : Prints a) (n : ℕ) : Prints (a.take n) := ha.sub fun _ h => List.mem_of_mem_take h

theorem Prints.drop {a : Txt} (ha : Prints a) (n : ℕ) : Prints (a.drop n) := ha.sub fun _ h => List.mem_of_mem_drop h

theorem prints_replicate (n : ℕ) (c : Char) (h : 32 ≤ c.toNat ∧ c.toNat < 127) : Prints (List.replicate n c) := by
  intro d hd; rw [List.eq_of_mem_replicate hd]; exact h

theorem prints_ite (p : Prop) [Decidable p] (a b : Char) (ha : 32 ≤ a.toNat ∧ a.toNat < 127)
    (hb : 32 ≤ b.toNat ∧ b.toNat < 127) :
    32 ≤ (if p then a else b).toNat ∧ (if p then a else b).toNat < 127 := by
  split
  exacts [ha, hb]

theorem prints_digit (n : ℕ) : 32 ≤ (Nat.digitChar n).toNat ∧ (Nat.digitChar n).toNat < 127 := by
  unfold Nat.digitChar
  iterate 16 refine prints_ite _ _ _ (by decide) ?_
  decide

theorem prints_digits (l : List ℕ) : Prints (l.map Nat.digitChar) := by
  intro c hc
  obtain ⟨n, _, rfl⟩ := List.mem_map.mp hc
  exact prints_digit n

theorem prints_showNat (n : ℕ) : Prints (showNat n) := by
  unfold showNat
  split
  · intro c hc; rw [List.mem_singleton.mp hc]; decide
  · exact prints_digits _

theorem prints_showFixed (b w n : ℕ) : Prints (showFixed b w n) := prints_digits _

theorem prints_sign (s : Bool) : Prints (signTxt s) := by
  cases s <;> simp [signTxt, Prints]

theorem prints_dropZeros {t : Txt} (h : Prints t) : Prints (dropZeros t) := by
  refine h.sub fun c hc => ?_
  unfold dropZeros at hc
  rw [List.mem_reverse] at hc
  exact List.mem_reverse.mp ((List.dropWhile_sublist _).subset hc)

theorem prints_padLeft (n : ℕ) {t : Txt} (h : Prints t) : Prints (padLeft n t) :=
  (prints_replicate _ _ (by decide)).append h

theorem prints_joinWith (sep : Txt) (hs : Prints sep) (ts : List Txt) (h : ∀ t ∈ ts, Prints t) : Prints (joinWith sep ts) := by
  induction ts with
  | nil => intro c hc; cases hc
  | cons w ws ih =>
    cases ws with
    | nil => exact h w (List.mem_cons_self ..)
    | cons v vs =>
      exact ((h w (List.mem_cons_self ..)).append hs).append (ih fun t ht => h t (List.mem_cons_of_mem _ ht))

theorem prints_show9 (x : SFlt K) : Prints (show9 x) := by
  cases x with
  | nan => exact prints_padLeft _ (by unfold Prints; decide)
  | inf s => exact prints_padLeft _ ((prints_sign s).append (by unfold Prints; decide))
  | fin s m =>
    exact prints_padLeft _ ((((prints_sign s).append (prints_showNat _)).append (by unfold Prints; decide)).append
      (prints_showFixed _ _ _))

theorem prints_showExp (e : ℤ) : Prints (showExp e) := by
  unfold showExp
  refine Prints.append ?_ ?_
  · intro c hc
    simp only [List.mem_cons, List.not_mem_nil, or_false] at hc
    rcases hc with rfl | rfl
    · decide
    · split <;> simp
  · split
    · exact Prints.append (a := ['0']) (by unfold Prints; decide) (prints_showNat _)
    · exact prints_showNat _

theorem prints_opt (p : Prop) [Decidable p] {a b : Txt} (ha : Prints a) (hb : Prints b) : Prints (if p then a else b) := by
  split
  exacts [ha, hb]

theorem prints_nil : Prints [] := by unfold Prints; decide
theorem prints_zero : Prints ['0'] := by unfold Prints; decide
theorem prints_dot : Prints ['.'] := by unfold Prints; decide

theorem prints_str12 (x : SFlt K) : Prints (str12 x) := by
  cases x with
  | nan =>
    show Prints "nan".toList
    unfold Prints; decide
  | inf s => exact (prints_sign s).append (by unfold Prints; decide)
  | fin s m =>
    unfold str12
    simp only
    refine prints_opt _ ((prints_sign s).append (by unfold Prints; decide)) (prints_opt _ ?_ ?_)
    · refine ((Prints.append (prints_sign s) ?_).append prints_dot).append (prints_opt _ prints_zero (prints_dropZeros ?_))
      · split
        · exact (prints_showFixed _ _ _).take _
        · exact prints_zero
      · split
        · exact (prints_showFixed _ _ _).drop _
        · exact (prints_replicate _ _ (by decide)).append (prints_showFixed _ _ _)
    · refine (((prints_sign s).append ((prints_showFixed _ _ _).take _)).append (prints_opt _ prints_nil ?_)).append
        (prints_showExp _)
      exact prints_dot.append (prints_dropZeros ((prints_showFixed _ _ _).drop _))

theorem prints_showInt (n : ℤ) : Prints (showInt n) := by
  unfold showInt
  split
  · exact Prints.append (a := ['-']) (by unfold Prints; decide) (prints_showNat _)
  · exact prints_showNat _

theorem line_of (t : Txt) (h : Prints t) : Spec.Line (String.ofList t) := by
  unfold Spec.Line; rw [String.toList_ofList]; exact h

theorem lines_of_line {s : String} (h : Spec.Line s) : Spec.Lines s := fun c hc => .inr (.inr (h c hc))

theorem line_strOf (x : Flt K) : Spec.Line (strOf x) := line_of _ (prints_str12 _)

theorem line_strsOf (xs : List (Flt K)) : Spec.Line (strsOf xs) := by
  refine line_of _ (prints_joinWith _ (by unfold Prints; decide) _ ?_)
  intro t ht
  obtain ⟨x, _, rfl⟩ := List.mem_map.mp ht
  exact prints_str12 _

theorem prints_floatToHex (f : Fmt) (x : SFlt K) (t : Txt) (h : floatToHex f x = .ok t) : Prints t := by
  unfold floatToHex at h
  split at h
  · injection h with h; rw [← h]; exact prints_showFixed _ _ _
  · cases h

theorem prints_writeToken (e : Enc) (x : SFlt K) (t : Txt) (h : writeToken e x = .ok t) : Prints t := by
  cases e with
  | decimal => injection h with h; rw [← h]; exact prints_show9 x
  | int f => injection h with h; rw [← h]; exact prints_showNat _
  | hex f => exact prints_floatToHex f x t h

theorem mem_of_mapM {α β : Type} (f : α → Py β) (l : List α) (ts : List β) (h : l.mapM f = .ok ts) (t : β) (ht : t ∈ ts) :
    ∃ a ∈ l, f a = .ok t := by
  have h := py_mapM_eq_ok.mp h
  induction h with
  | nil => cases ht
  | cons h1 _ ih =>
    rcases List.mem_cons.mp ht with rfl | ht
    · exact ⟨_, List.mem_cons_self .., h1⟩
    · rename_i h2 _
      obtain ⟨a, ha, h⟩ := ih (py_mapM_eq_ok.mpr ‹_›) ht
      exact ⟨a, List.mem_cons_of_mem _ ha, h⟩

/-- Tabs, line feeds and printable characters. -/
def PrintLines (t : Txt) : Prop := ∀ c ∈ t, c = '\t' ∨ c = '\n' ∨ (32 ≤ c.toNat ∧ c.toNat < 127)

theorem Prints.lines {t : Txt} (h : Prints t) : PrintLines t := fun c hc => .inr (.inr (h c hc))

theorem PrintLines.append {a b : Txt} (ha : PrintLines a) (hb : PrintLines b) : PrintLines (a ++ b) := by
  intro c hc
  rcases List.mem_append.mp hc with h | h
  exacts [ha c h, hb c h]

theorem printLines_writeRow (compat : ℕ) (a : SArr K) (l : List (SFlt K)) (t : Txt) (h : writeRow compat a l = .ok t) :
    PrintLines t := by
  have key : ∀ e ts, l.mapM (writeToken e) = .ok ts → PrintLines (joinWith [' '] (ts.map (padLeft e.pad)) ++ ['\n']) := by
    intro e ts hts
    refine PrintLines.append (Prints.lines (prints_joinWith _ (by unfold Prints; decide) _ ?_)) (by unfold PrintLines; decide)
    intro u hu
    obtain ⟨v, hv, rfl⟩ := List.mem_map.mp hu
    obtain ⟨x, _, hx⟩ := mem_of_mapM _ _ _ hts v hv
    exact prints_padLeft _ (prints_writeToken e x v hx)
  have tail : ∀ r, (do
      let e ← writeEnc compat a.rawHalfs a.floatEncoding
      let ts ← l.mapM (writeToken e)
      pure (joinWith [' '] (ts.map (padLeft e.pad)) ++ ['\n']) : Py Txt) = .ok r → PrintLines r := by
    intro r hr
    obtain ⟨e, _, hr⟩ := py_bind_eq_ok.mp hr
    obtain ⟨ts, hts, hr⟩ := py_bind_eq_ok.mp hr
    injection hr with hr
    rw [← hr]; exact key e ts hts
  unfold writeRow at h
  split at h
  · obtain ⟨_, _, h⟩ := py_bind_eq_ok.mp h
    exact tail t h
  · exact tail t h

theorem asciiName_of (s : String) (h : (s.toList.all fun c => (65 ≤ c.toNat && c.toNat ≤ 90) || (97 ≤ c.toNat && c.toNat ≤ 122)
    || c = '_' || (48 ≤ c.toNat && c.toNat ≤ 57)) = true)
    (h' : (s.toList.head?.any fun c => (65 ≤ c.toNat && c.toNat ≤ 90) || (97 ≤ c.toNat && c.toNat ≤ 122)) = true)
    (hx : s ≠ "xmlns") : Spec.AsciiName s := by
  rw [List.all_eq_true] at h
  simp only [Bool.or_eq_true, Bool.and_eq_true, decide_eq_true_eq] at h
  refine ⟨?_, hx, ?_⟩
  · cases hs : s.toList with
    | nil => rw [hs] at h'; cases h'
    | cons c r =>
      rw [hs] at h h'
      simp only [List.head?_cons, Option.any_some, Bool.or_eq_true, Bool.and_eq_true, decide_eq_true_eq] at h'
      refine ⟨c, r, hs, ?_, ?_⟩
      · unfold Spec.Letter; omega
      · intro d hd
        have := h d hd
        unfold Spec.Letter
        rcases this with ((h | h) | rfl) | h
        · exact .inl (.inl h)
        · exact .inl (.inr (.inl h))
        · left; decide
        · exact .inr (.inl h)
  · intro c hc
    rcases h c hc with ((h | h) | rfl) | h
    · omega
    · omega
    · decide
    · omega

theorem name_dim : Spec.AsciiName "dim" := asciiName_of _ (by decide) (by decide) (by decide)
theorem name_floatEncoding : Spec.AsciiName "floatEncoding" := asciiName_of _ (by decide) (by decide) (by decide)

theorem tidy_leaf {tag : String} {as : Dict String} {text : Option String} (h1 : Spec.AsciiName tag)
    (h2 : ∀ kv ∈ as, Spec.AsciiName kv.1 ∧ Spec.Line kv.2) (h3 : (as.map Prod.fst).Nodup)
    (h4 : ∀ s, text = some s → Spec.Lines s) : Tidy (.mk tag as text []) :=
  .mk h1 h2 h3 (fun h => absurd rfl h) h4 (by simp)

theorem tidy_array (compat : ℕ) (a : Arr K) (x : Xml) (h : a.write compat = .ok x) : Tidy x := by
  unfold Arr.write SArr.write at h
  obtain ⟨cols, _, h⟩ := py_bind_eq_ok.mp h
  obtain ⟨rows, _, h⟩ := py_bind_eq_ok.mp h
  obtain ⟨texts, ht, h⟩ := py_bind_eq_ok.mp h
  injection h with h
  rw [← h]
  refine tidy_leaf (asciiName_of _ (by decide) (by decide) (by decide)) ?_ ?_ ?_
  · intro kv hkv
    rcases List.mem_append.mp hkv with hkv | hkv
    · rw [List.mem_singleton.mp hkv]
      refine ⟨name_dim, line_of _ (prints_joinWith _ (by unfold Prints; decide) _ ?_)⟩
      intro t ht
      obtain ⟨n, _, rfl⟩ := List.mem_map.mp ht
      exact prints_showNat n
    · split at hkv
      · rename_i hk
        rw [List.mem_singleton.mp hkv]
        refine ⟨name_floatEncoding, ?_⟩
        have hk := hk.2.2
        unfold knownEncoding at hk
        simp only [Bool.or_eq_true, decide_eq_true_eq] at hk
        rcases hk with ((((h | h) | h) | h) | h) | h <;>
          (simp only; rw [h]; unfold Spec.Line; decide)
      · cases hkv
  · split <;> simp
  · intro s hs
    injection hs with hs
    rw [← hs]
    unfold Spec.Lines
    rw [String.toList_ofList]
    refine PrintLines.append (PrintLines.append (by unfold PrintLines; decide) ?_) (by unfold PrintLines; decide)
    intro c hc
    obtain ⟨t, htm, hc⟩ := List.mem_flatten.mp hc
    obtain ⟨n, _, hn⟩ := mem_of_mapM _ _ _ ht t htm
    exact printLines_writeRow compat _ _ t hn c hc

theorem tidy_indexMap (m : IndexMap K) (x : Xml) (h : m.write = .ok x) : Tidy x := by
  unfold IndexMap.write at h
  obtain ⟨ts, ht, h⟩ := py_bind_eq_ok.mp h
  split at h
  · cases h
  · injection h with h
    rw [← h]
    refine tidy_leaf (asciiName_of _ (by decide) (by decide) (by decide)) ?_ (by simp) ?_
    · intro kv hkv
      rw [List.mem_singleton.mp hkv]
      exact ⟨name_dim, line_of _ (prints_showNat _)⟩
    · intro s hs
      injection hs with hs
      rw [← hs]
      refine lines_of_line (line_of _ (prints_joinWith _ (by unfold Prints; decide) _ ?_))
      intro t htm
      obtain ⟨p, _, hp⟩ := mem_of_mapM _ _ _ ht t htm
      unfold pairTxt at hp
      obtain ⟨n, _, hp⟩ := py_bind_eq_ok.mp hp
      injection hp with hp
      rw [← hp]
      exact ((prints_str12 _).append (by unfold Prints; decide)).append (prints_showInt _)

/-! ### Elements, nodes and lists -/

/-- The names elements can have. -/
def elemNames : List String :=
  ["Comment", "Description", "InputDescriptor", "OutputDescriptor", "AppRelease", "Copyright", "Release", "Info",
    "minInValue", "maxInValue", "minOutValue", "maxOutValue", "DynamicParameter", "SOPNode", "SatNode", "Slope",
    "Offset", "Power", "Saturation", "GammaParams", "LogParams", "ECParams", "Range", "Matrix", "LUT1D", "LUT3D",
    "ASC_CDL", "ColorCorrection", "ExposureContrast", "Gamma", "Log", "ProcessNode", "Group", "Reference",
    "ProcessList", "param", "gamma", "offset", "channel", "refWhite", "refBlack", "highlight", "shadow", "exposure",
    "contrast", "pivot"]

theorem elemNames_ok (s : String) (h : s ∈ elemNames) : Spec.AsciiName s := by
  have key : ∀ s ∈ elemNames, (s.toList.all fun c => (65 ≤ c.toNat && c.toNat ≤ 90) || (97 ≤ c.toNat && c.toNat ≤ 122)
      || c = '_' || (48 ≤ c.toNat && c.toNat ≤ 57)) = true ∧
      (s.toList.head?.any fun c => (65 ≤ c.toNat && c.toNat ≤ 90) || (97 ≤ c.toNat && c.toNat ≤ 122)) = true ∧
      s ≠ "xmlns" := by decide +kernel
  obtain ⟨h1, h2, h3⟩ := key s h
  exact asciiName_of s h1 h2 h3

/-- The names of elements with children. -/
def parentNames : List String :=
  ["Info", "SOPNode", "SatNode", "Range", "Matrix", "LUT1D", "LUT3D", "ASC_CDL", "ColorCorrection",
    "ExposureContrast", "Gamma", "Log", "ProcessNode", "Group", "Reference", "ProcessList"]

theorem parentNames_ok (s : String) (h : s ∈ parentNames) : Spec.AsciiName s ∧ elementType s ∉ textNames := by
  have key : ∀ s ∈ parentNames, s ∈ elemNames ∧ elementType s ∉ textNames := by decide +kernel
  exact ⟨elemNames_ok s (key s h).1, (key s h).2⟩

theorem tidy_parent {tag : String} {as : Dict String} {cs : List Xml} (h1 : tag ∈ parentNames)
    (h2 : ∀ kv ∈ as, Spec.AsciiName kv.1 ∧ Spec.Line kv.2) (h3 : (as.map Prod.fst).Nodup)
    (h4 : ∀ c ∈ cs, Tidy c) : Tidy (.mk tag as none cs) :=
  .mk (parentNames_ok tag h1).1 h2 h3 (fun _ => ⟨rfl, (parentNames_ok tag h1).2⟩) (fun _ h => nomatch h) h4

theorem tidy_named {tag : String} {text : Option String} (h : tag ∈ elemNames)
    (h4 : ∀ s, text = some s → Spec.Lines s) : Tidy (.mk tag [] text []) :=
  tidy_leaf (elemNames_ok tag h) (by simp) (by simp) h4

theorem tidy_attrs {tag : String} {as : Dict String} (h : tag ∈ elemNames)
    (h2 : ∀ kv ∈ as, kv.1 ∈ elemNames ∧ Spec.Line kv.2) (h3 : (as.map Prod.fst).Nodup) : Tidy (.mk tag as none []) :=
  tidy_leaf (elemNames_ok tag h) (fun kv hkv => ⟨elemNames_ok _ (h2 kv hkv).1, (h2 kv hkv).2⟩) h3 (fun _ h => nomatch h)

/-- Comments with a name of their own, `Info` with known children. -/
def NamedElem : Elem K → Prop
  | .comment t _ => t ∈ elemNames
  | .info ps => ∀ p ∈ ps, p.1 ∈ elemNames
  | _ => True

theorem tidy_elem (compat : ℕ) (e : Elem K) (hn : NamedElem e) (hp : Spec.PlainElem e) (x : Xml)
    (h : e.write compat = .ok x) : Tidy x := by
  cases e with
  | comment t s => cases h; exact tidy_named hn hp
  | info ps =>
    cases h
    refine tidy_parent (by decide) (by simp) (by simp) ?_
    intro c hc
    obtain ⟨p, hpm, rfl⟩ := List.mem_map.mp hc
    exact tidy_named (hn p hpm) (hp p hpm)
  | array a => exact tidy_array compat a x h
  | indexMap m => exact tidy_indexMap m x h

theorem lines_strOf (x : Flt K) : Spec.Lines (strOf x) := lines_of_line (line_strOf x)

theorem tidy_attrDict (d : Dict AVal) (hp : Spec.PlainAttrs d)
    (hv : ∀ kv ∈ d, (∃ b, kv.2 = .bool b) ∨ ∃ s, kv.2 = .str s) :
    ∀ kv ∈ d.map (fun kv => (kv.1, kv.2.text)), Spec.AsciiName kv.1 ∧ Spec.Line kv.2 := by
  intro kv hkv
  obtain ⟨q, hq, rfl⟩ := List.mem_map.mp hkv
  refine ⟨(hp q hq).1, ?_⟩
  rcases hv q hq with ⟨b, hb⟩ | ⟨s, hs⟩
  · have : ∀ b, Spec.Line (AVal.bool b).text := by unfold Spec.Line; decide
    simp only [hb]; exact this b
  · simp only [hs]; exact (hp q hq).2 s hs

theorem tidy_base (compat : ℕ) (tag : String) (b : Base K) (extra : List Xml) (x : Xml)
    (h : writeBase compat tag b extra = .ok x) (ht : tag ∈ parentNames) (hn : (b.attrs.map Prod.fst).Nodup)
    (hv : ∀ kv ∈ b.attrs, (∃ b, kv.2 = .bool b) ∨ ∃ s, kv.2 = .str s) (hp : Spec.PlainBase b)
    (hval : ∀ kv ∈ b.values, kv.1 ∈ elemNames) (hel : ∀ e ∈ b.elements, NamedElem e) (hex : ∀ c ∈ extra, Tidy c) :
    Tidy x := by
  unfold writeBase at h
  obtain ⟨es, hes, h⟩ := py_bind_eq_ok.mp h
  injection h with h
  rw [← h]
  refine tidy_parent ht (tidy_attrDict _ hp.1 hv) (by simpa [List.map_map, Function.comp_def] using hn) ?_
  intro c hc
  simp only [List.mem_append] at hc
  rcases hc with ((hc | hc) | hc) | hc
  · obtain ⟨kv, hkv, rfl⟩ := List.mem_map.mp hc
    refine tidy_named (hval kv hkv) ?_
    rintro s ⟨⟩
    exact lines_strOf _
  · obtain ⟨d, hd, rfl⟩ := List.mem_map.mp hc
    refine tidy_attrs (by decide) ?_ (by simp)
    intro kv hkv
    rw [List.mem_singleton.mp hkv]
    exact ⟨by simp [elemNames], hp.2.1 d hd⟩
  · obtain ⟨e, he, hx⟩ := mem_of_mapM _ _ _ hes c hc
    exact tidy_elem compat e (hel e he) (hp.2.2 e he) c hx
  · exact hex c hc

theorem tidy_optElem (tag : String) (ht : tag ∈ elemNames) (t : Option String) (h : ∀ s, t = some s → Spec.Lines s) :
    ∀ c ∈ optElem tag t, Tidy c := by
  intro c hc
  cases t with
  | none => cases hc
  | some s => rw [List.mem_singleton.mp hc]; exact tidy_named ht h

theorem line_channel (c : Option String) (h : ∀ s, c = some s → Spec.Line s) :
    ∀ kv ∈ channelAttr c, kv.1 ∈ elemNames ∧ Spec.Line kv.2 := by
  intro kv hkv
  cases c with
  | none => cases hkv
  | some s => rw [List.mem_singleton.mp hkv]; exact ⟨by simp [elemNames], h s rfl⟩

theorem tidy_extra (k : Kind K) (h : Spec.PlainKind k) : ∀ c ∈ k.extra, Tidy c := by
  have hl : ∀ (f : Option (List (Flt K))) s, f.map strsOf = some s → Spec.Lines s := by
    intro f s hs
    obtain ⟨v, _, rfl⟩ := Option.map_eq_some_iff.mp hs
    exact lines_of_line (line_strsOf v)
  have hl1 : ∀ (f : Option (Flt K)) s, f.map strOf = some s → Spec.Lines s := by
    intro f s hs
    obtain ⟨v, _, rfl⟩ := Option.map_eq_some_iff.mp hs
    exact lines_strOf v
  intro c hc
  cases k with
  | cdl b v =>
    have hc : c ∈ cdlExtra v := hc
    unfold cdlExtra at hc
    rcases List.mem_cons.mp hc with rfl | hc
    · refine tidy_parent (by decide) (by simp) (by simp) ?_
      intro d hd
      simp only [List.mem_append] at hd
      rcases hd with (hd | hd) | hd
      · exact tidy_optElem _ (by decide) _ (hl _) d hd
      · exact tidy_optElem _ (by decide) _ (hl _) d hd
      · exact tidy_optElem _ (by decide) _ (hl _) d hd
    · rw [List.mem_singleton.mp hc]
      exact tidy_parent (by decide) (by simp) (by simp) (tidy_optElem _ (by decide) _ (hl1 _))
  | exposureContrast e c' p =>
    rw [List.mem_singleton.mp hc]
    refine tidy_attrs (by decide) ?_ (by simp)
    intro kv hkv
    simp only [List.mem_cons, List.not_mem_nil, or_false] at hkv
    rcases hkv with rfl | rfl | rfl <;> exact ⟨by simp [elemNames], line_strOf _⟩
  | gamma ps =>
    obtain ⟨p, hp, rfl⟩ := List.mem_map.mp hc
    unfold gammaElem
    refine tidy_attrs (by decide) ?_ ?_
    · intro kv hkv
      simp only [List.mem_append] at hkv
      rcases hkv with (hkv | hkv) | hkv
      · rw [List.mem_singleton.mp hkv]; exact ⟨by simp [elemNames], line_strOf _⟩
      · split at hkv
        · cases hkv
        · rw [List.mem_singleton.mp hkv]; exact ⟨by simp [elemNames], line_strOf _⟩
      · exact line_channel _ (h p hp) kv hkv
    · cases p.channel <;> split <;> simp [channelAttr]
  | log ps =>
    obtain ⟨p, hp, rfl⟩ := List.mem_map.mp hc
    unfold logElem
    refine tidy_attrs (by decide) ?_ ?_
    · intro kv hkv
      rcases List.mem_append.mp hkv with hkv | hkv
      · simp only [List.mem_cons, List.not_mem_nil, or_false] at hkv
        rcases hkv with rfl | rfl | rfl | rfl | rfl <;> exact ⟨by simp [elemNames], line_strOf _⟩
      · exact line_channel _ (h p hp) kv hkv
    · cases p.channel <;> simp [channelAttr]
  | range => cases hc
  | matrix => cases hc
  | lut1d => cases hc
  | lut3d => cases hc
  | plain => cases hc

theorem namedElem_info (e : Elem K) (h : Spec.InfoElemOk e) : NamedElem e := by
  rcases h with ⟨t, x, rfl, ht, _⟩ | ⟨ps, rfl, h⟩
  · have : ∀ t ∈ ["Comment", "Description", "InputDescriptor", "OutputDescriptor"], t ∈ elemNames := by decide
    exact this t ht
  · intro p hp
    have : ∀ t ∈ ["AppRelease", "Copyright", "Release"], t ∈ elemNames := by decide
    exact this _ (h p hp).1

theorem namedElem_desc (e : Elem K) (h : Spec.DescriptionOk e) : NamedElem e := by
  obtain ⟨x, rfl, _⟩ := h
  show "Description" ∈ elemNames
  decide

theorem namedElem_leaf (k : Kind K) (b : Base K) (e : Elem K) (h : Spec.LeafElemOk k b e) : NamedElem e := by
  rcases h with h | ⟨_, a, rfl, _⟩ | ⟨_, a, rfl, _⟩ | ⟨_, m, rfl, _⟩
  · exact namedElem_desc e h
  · trivial
  · trivial
  · trivial

theorem attrsOk_vals {need : List String} {d : Dict AVal} (h : Spec.AttrsOk need d) :
    ∀ kv ∈ d, (∃ b, kv.2 = .bool b) ∨ ∃ s, kv.2 = .str s := by
  intro kv hkv
  rcases h.2.2 kv hkv with h | ⟨s, h, _⟩
  · exact .inl h
  · exact .inr ⟨s, h⟩

theorem kindTag_parent (k : Kind K) : k.tag ∈ parentNames := by
  cases k with
  | cdl b _ => cases b <;> simp [Kind.tag, parentNames]
  | _ => simp [Kind.tag, parentNames]

theorem tidy_writeNodes (compat : ℕ) (cs : List (Node K))
    (ih : ∀ n ∈ cs, ∀ xs, n.write compat (some false) = .ok xs → ∀ x ∈ xs, Tidy x) :
    ∀ xs, writeNodes compat (some false) cs = .ok xs → ∀ x ∈ xs, Tidy x := by
  induction cs with
  | nil => intro xs h; cases h; simp
  | cons n ns ihs =>
    intro xs h
    rw [writeNodes] at h
    obtain ⟨a, ha, h⟩ := py_bind_eq_ok.mp h
    obtain ⟨b, hb, h⟩ := py_bind_eq_ok.mp h
    cases h
    intro x hx
    rcases List.mem_append.mp hx with hx | hx
    · exact ih n (List.mem_cons_self ..) a ha x hx
    · exact ihs (fun m hm => ih m (List.mem_cons_of_mem _ hm)) b hb x hx

theorem tidy_node (compat : ℕ) (load : String → Py (Option (List (Node K)))) (n : Node K) (hs : Spec.Storable compat load n)
    (hp : Spec.Plain n) : ∀ xs, n.write compat (some false) = .ok xs → ∀ x ∈ xs, Tidy x := by
  induction n using Node.ind with
  | hleaf k b =>
    intro xs h
    rw [Node.write] at h
    obtain ⟨x, hx, h⟩ := py_bind_eq_ok.mp h
    cases h
    cases hs with
    | leaf h1 h2 h3 h4 h5 =>
      cases hp with
      | leaf p1 p2 =>
        intro y hy
        rw [List.mem_singleton.mp hy]
        refine tidy_base compat _ b _ x hx (kindTag_parent k) h2.1 (attrsOk_vals h2) p2 ?_
          (fun e he => namedElem_leaf k b e (h5 e he)) (tidy_extra k p1)
        rcases h3 with h3 | ⟨_, _, h3⟩
        · rw [h3]; simp
        · intro kv hkv
          have : ∀ t ∈ ["minInValue", "maxInValue", "minOutValue", "maxOutValue"], t ∈ elemNames := by decide
          exact this _ (h3 kv hkv)
  | hgroup b cs ih =>
    intro xs h
    rw [Node.write] at h
    obtain ⟨ns, hns, h⟩ := py_bind_eq_ok.mp h
    obtain ⟨x, hx, h⟩ := py_bind_eq_ok.mp h
    cases h
    cases hs with
    | group h1 h2 h3 h4 h5 =>
      cases hp with
      | group p1 p2 =>
        intro y hy
        rw [List.mem_singleton.mp hy]
        exact tidy_base compat _ b _ x hx (by decide) h1.1 (attrsOk_vals h1) p1 (by rw [h2]; simp)
          (fun e he => namedElem_info e (h4 e he)) (tidy_writeNodes compat cs (fun n hn => ih n hn (h5 n hn) (p2 n hn)) ns hns)
  | href b w ns =>
    intro xs h
    rw [Node.write] at h
    obtain ⟨x, hx, h⟩ := py_bind_eq_ok.mp h
    cases h
    cases hs with
    | ref h1 h2 h3 h4 h5 h6 =>
      cases hp with
      | ref p1 =>
        intro y hy
        rw [List.mem_singleton.mp hy]
        exact tidy_base compat _ b _ x hx (by decide) h1.1 (attrsOk_vals h1) p1 (by rw [h2]; simp)
          (fun e he => namedElem_desc e (h4 e he)) (by simp)
  | hmiss b w =>
    intro xs h
    rw [Node.write] at h
    obtain ⟨x, hx, h⟩ := py_bind_eq_ok.mp h
    cases h
    cases hs with
    | refMissing h1 h2 h3 h4 h5 h6 =>
      cases hp with
      | refMissing p1 =>
        intro y hy
        rw [List.mem_singleton.mp hy]
        exact tidy_base compat _ b _ x hx (by decide) h1.1 (attrsOk_vals h1) p1 (by rw [h2]; simp)
          (fun e he => namedElem_desc e (h4 e he)) (by simp)

theorem tidy_list (compat : ℕ) (load : String → Py (Option (List (Node K)))) (l : PList K)
    (hs : Spec.StorableList compat load l) (hp : Spec.PlainList l) (x : Xml) (h : l.write compat false = .ok x) :
    Tidy x := by
  unfold PList.write at h
  obtain ⟨es, hes, h⟩ := py_bind_eq_ok.mp h
  obtain ⟨ns, hns, h⟩ := py_bind_eq_ok.mp h
  injection h with h
  rw [← h]
  obtain ⟨h1, h2, h3, h4, h5⟩ := hs
  obtain ⟨p1, p2, p3⟩ := hp
  refine tidy_parent (by decide) (tidy_attrDict _ p1 fun kv hkv => .inr (h2 kv hkv))
    (by simpa [List.map_map, Function.comp_def] using h1) ?_
  intro c hc
  rw [h3] at hc
  simp only [List.map_nil, List.nil_append, List.mem_append] at hc
  rcases hc with hc | hc
  · obtain ⟨e, he, hx⟩ := mem_of_mapM _ _ _ hes c hc
    exact tidy_elem compat e (namedElem_info e (h4 e he)) (p2 e he) c hx
  · exact tidy_writeNodes compat l.processes (fun n hn => tidy_node compat load n (h5 n hn) (p3 n hn)) ns hns c hc

end CLF
