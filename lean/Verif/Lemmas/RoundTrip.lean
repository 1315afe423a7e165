import Verif.Model.Write
import Verif.Spec.RoundTrip
import Verif.Props.ArrayText
import Verif.Lemmas.IndexMapText
import Verif.Lemmas.ReadFile

/-! # Writing lists and reading them back -/

set_option linter.unusedSectionVars false

namespace CLF

variable {K : Type} [Field K] [LinearOrder K] [IsStrictOrderedRing K] [FloorRing K]

/-! ## Numbers -/

/-- A number after printing and parsing. -/
def reread (x : Flt K) : Flt K := (dec12 (SFlt.ofFlt x)).toFlt

theorem printed_reread (x : Flt K) : Spec.Printed x (reread x) := by
  cases x with
  | fin v =>
    obtain ⟨w, h1, h2⟩ := dec12_near v
    refine ⟨w, h1, h2, fun hd => ?_⟩
    have := dec12_digits v hd
    rw [h1] at this
    injection this
  | inf s => cases s <;> rfl
  | nan => rfl

theorem printed_all (xs : List (Flt K)) : List.Forall₂ Spec.Printed xs (xs.map reread) :=
  forall₂_map _ _ _ fun x _ => printed_reread x

theorem strOf_ne (x : Flt K) : strOf x ≠ "" := by
  intro h
  have h1 : (strOf x).toList = [] := by rw [h]; rfl
  unfold strOf at h1
  rw [String.toList_ofList] at h1
  exact (str12_word (SFlt.ofFlt x) (SFlt.valid_ofFlt x)).2.1 h1

theorem floatOfText_strOf (x : Flt K) : floatOfText (some (strOf x)) = .ok (reread x) := by
  unfold floatOfText strOf
  simp only [String.toList_ofList]
  rw [parseFloat_str12 _ (SFlt.valid_ofFlt x)]
  rfl

theorem strs_words (xs : List (Flt K)) : words (strsOf xs).toList = xs.map fun x => str12 (SFlt.ofFlt x) := by
  unfold strsOf
  rw [String.toList_ofList, words_joined]
  intro w hw
  obtain ⟨x, _, rfl⟩ := List.mem_map.mp hw
  have := str12_word (SFlt.ofFlt x) (SFlt.valid_ofFlt x)
  exact ⟨this.1, this.2.1⟩

theorem strsOf_ne (xs : List (Flt K)) (h : xs ≠ []) : strsOf xs ≠ "" := by
  intro he
  have h1 := strs_words xs
  rw [he] at h1
  have h2 : words "".toList = [] := by decide
  rw [h2] at h1
  exact h (List.map_eq_nil_iff.mp h1.symm)

theorem floatsOfText_strsOf (xs : List (Flt K)) :
    floatsOfText (some (strsOf xs)) = .ok (xs.map reread) := by
  unfold floatsOfText
  simp only
  rw [strs_words, py_mapM_map']
  induction xs with
  | nil => rfl
  | cons x xs ih =>
    rw [py_mapM_cons, parseFloat_str12 _ (SFlt.valid_ofFlt x), ih]; rfl

theorem normText_of_ne (t : Option String) (h : t ≠ some "") : Xml.normText t = t := by
  cases t with
  | none => rfl
  | some s => unfold Xml.normText; simp only; rw [if_neg (fun e => h (by rw [e]))]

theorem normText_strOf (x : Flt K) : Xml.normText (some (strOf x)) = some (strOf x) :=
  normText_of_ne _ fun h => strOf_ne x (by injection h)

theorem reparseAll_eq (cs : List Xml) : Xml.reparseAll cs = cs.map Xml.reparse := by
  induction cs with
  | nil => rw [Xml.reparseAll]; rfl
  | cons c cs ih => rw [Xml.reparseAll, ih]; rfl

theorem reparse_mk (t : String) (a : Dict String) (s : Option String) (cs : List Xml) :
    (Xml.mk t a s cs).reparse = .mk t a (Xml.normText s) (cs.map Xml.reparse) := by
  rw [Xml.reparse, reparseAll_eq]

/-! ## Tables -/

theorem flt_ofFlt (x : Flt K) : (SFlt.ofFlt x).toFlt = x := by
  cases x with
  | fin v =>
    by_cases h : v < 0
    · simp [SFlt.ofFlt, SFlt.toFlt, h, abs_of_neg]
    · simp [SFlt.ofFlt, SFlt.toFlt, h, abs_of_nonneg (not_lt.mp h)]
  | inf s => cases s <;> rfl
  | nan => rfl

theorem close_dec9 (x : SFlt K) (hx : Spec.Proper x) : Spec.Close (1 / 2 / 10 ^ 9) x (dec9 x) := by
  cases x with
  | nan => rfl
  | inf s => rfl
  | fin s m =>
    obtain ⟨m', h1, h2, h3⟩ := dec9_near s m hx
    rw [h1]
    exact ⟨rfl, by rw [abs_sub_comm]; exact h3⟩

theorem decimals_dec9 (x : SFlt K) : Spec.Decimals9 (dec9 x) := by
  cases x with
  | nan => trivial
  | inf s => trivial
  | fin s m => exact ⟨_, rfl⟩

theorem proper_ofFlt (x : Flt K) : Spec.Proper (SFlt.ofFlt x) := by
  have := SFlt.valid_ofFlt x
  cases h : SFlt.ofFlt x with
  | fin s m => rw [h] at this; exact this
  | inf s => trivial
  | nan => trivial

theorem Arr.read_write (A : Arith K) (compat : ℕ) (a : Arr K) (x : Xml) (int raw : Prop)
    (ha : Spec.ArrayOk int raw a) (hw : a.write compat = .ok x) :
    ∃ vs, Arr.read A ⟨[], [], false, a.rawHalfs, "string"⟩ x.reparse =
        .ok ⟨a.dims, vs, false, a.rawHalfs, a.floatEncoding⟩ ∧
      List.Forall₂ (Spec.TableValue A (Spec.encodingBits a.rawHalfs a.floatEncoding)) a.values vs := by
  obtain ⟨-, -, ⟨c, hc, hfull⟩, henc⟩ := ha
  unfold Arr.write at hw
  have hx : x.reparse = x := by
    obtain ⟨_, _, _, _, _, _, rfl⟩ := SArr.write_eq hw
    rw [reparse_mk, normText_of_ne]
    · rfl
    · intro h
      have h := congrArg String.toList (Option.some.inj h)
      rw [String.toList_ofList] at h
      simp [arrText] at h
  rw [hx]
  obtain ⟨c', hc', hc0, h⟩ := SArr.read_write hw (fun v => SFlt.ofFlt (A.f32 v.toFlt))
    ⟨[], [], false, a.rawHalfs, "string"⟩ rfl rfl
  rw [columnsOf_eq] at hc'
  have : c' = c := Option.some.inj (hc'.symm.trans hc)
  subst this
  have hlen : a.toS.values.length = a.values.length := List.length_map ..
  unfold Arr.read
  have e0 : Arr.toS (⟨[], [], false, a.rawHalfs, "string"⟩ : Arr K)
    = ⟨[], [], false, a.rawHalfs, "string"⟩ := rfl
  rw [e0, h, py_ok_bind]
  refine ⟨((a.toS.values.take (a.toS.values.length / c' * c')).map
      ((readEnc a.rawHalfs a.floatEncoding).back fun v => SFlt.ofFlt (A.f32 v.toFlt))).map SFlt.toFlt,
    ?_, ?_⟩
  rotate_left
  · rw [hlen, Nat.div_mul_cancel hfull, List.take_of_length_le (by rw [hlen])]
    show List.Forall₂ _ a.values (((a.values.map SFlt.ofFlt).map _).map _)
    rw [List.map_map, List.map_map]
    apply forall₂_map
    intro v _
    simp only [Function.comp]
    cases hb : Spec.encodingBits a.rawHalfs a.floatEncoding with
    | none =>
      have he : readEnc a.rawHalfs a.floatEncoding = .decimal := by
        unfold Spec.encodingBits at hb
        by_cases hr : a.rawHalfs = true
        · rw [if_pos hr] at hb; cases hb
        · rw [if_neg hr] at hb
          have hr' : a.rawHalfs = false := by simpa using hr
          rcases henc with h | ⟨_, h⟩
          · rw [h, hr']; rfl
          · simp only [List.mem_cons, List.not_mem_nil, or_false] at h
            rcases h with h | h | h | h | h | h <;> rw [h] at hb <;> cases hb
      rw [he]
      refine ⟨dec9 (SFlt.ofFlt v), close_dec9 _ (proper_ofFlt v), decimals_dec9 _, ?_⟩
      exact flt_ofFlt _
    | some q =>
      obtain ⟨p, w⟩ := q
      obtain ⟨f, hf, rfl, rfl, he⟩ := encodingBits_spec _ _ _ _ hb
      have h1 : 1 ≤ f.mant ∧ 1 ≤ f.ebits := by rcases hf with rfl | rfl | rfl <;> decide
      have e : ∀ store, (readEnc a.rawHalfs a.floatEncoding).back store (SFlt.ofFlt v) =
          SFlt.round f (SFlt.ofFlt v) := by
        intro store
        rcases he with he | he <;> rw [he] <;> rfl
      rw [e]
      refine ⟨⟨_, rounded_round f h1.1 h1.2 _ (proper_ofFlt v), rfl⟩, fun hi => ?_⟩
      rw [round_isFloat f h1.1 _ hi, flt_ofFlt]
  · have he : (if 0 < a.toS.values.length / c' ∧ knownEncoding a.toS.floatEncoding = true
        then a.toS.floatEncoding else "string") = a.floatEncoding := by
      show (if 0 < a.toS.values.length / c' ∧ knownEncoding a.floatEncoding = true
        then a.floatEncoding else "string") = a.floatEncoding
      rcases henc with h | ⟨h0, h⟩
      · rw [h]; exact ite_self _
      · rw [if_pos]
        constructor
        · rw [hlen]
          exact Nat.div_pos (Nat.le_of_dvd (List.length_pos_iff.mpr h0) hfull) (Nat.pos_of_ne_zero hc0)
        · simp only [List.mem_cons, List.not_mem_nil, or_false] at h
          rcases h with h | h | h | h | h | h <;> rw [h] <;> rfl
    rw [he]
    rfl

theorem int_outputs (m : IndexMap K) (h : ∀ v ∈ m.outputs, ∃ n : ℤ, v = .fin (n : K)) :
    m.outputs.map (fun v => (Flt.fin ((truncVal v : ℤ) : K))) = m.outputs := by
  conv_rhs => rw [← List.map_id m.outputs]
  apply List.map_congr_left
  intro v hv
  obtain ⟨n, rfl⟩ := h v hv
  show Flt.fin _ = Flt.fin _
  congr 2
  show (if (n : K) < 0 then -⌊-(n : K)⌋ else ⌊(n : K)⌋) = n
  rw [← Int.cast_neg, Int.floor_intCast, Int.floor_intCast]
  split <;> omega

/-! ## Common parts -/

theorem Dict.get?_map {α β : Type} (f : α → β) (d : Dict α) (k : String) :
    Dict.get? (d.map fun kv => (kv.1, f kv.2)) k = (d.get? k).map f := by
  induction d with
  | nil => rfl
  | cons p d ih =>
    obtain ⟨q, w⟩ := p
    simp only [List.map_cons, Dict.get?]
    by_cases h : q = k
    · simp [h]
    · simp only [h, if_false]; exact ih

theorem readAttrs_eq (b : Base K) (attrs : Dict String) : readAttrs b attrs =
    { b with attrs := attrs.foldl (fun d kv => Dict.set d kv.1 (attrOfText kv.2)) b.attrs } := by
  unfold readAttrs
  induction attrs generalizing b with
  | nil => rfl
  | cons p attrs ih => rw [List.foldl_cons, List.foldl_cons, ih]; rfl

theorem keys_text (d : Dict AVal) : (d.map fun kv => (kv.1, kv.2.text)).map Prod.fst = d.map Prod.fst := by
  rw [List.map_map]; rfl

theorem attr_back (v : AVal) (h : (∃ b, v = .bool b) ∨ ∃ s, v = .str s ∧ s ≠ "True" ∧ s ≠ "False") :
    attrOfText v.text = v := by
  rcases h with ⟨b, rfl⟩ | ⟨s, rfl, h1, h2⟩
  · cases b <;> rfl
  · exact attrOfText_str s h1 h2

theorem attrs_back (need : List String) (d : Dict AVal) (h : Spec.AttrsOk need d) (b : Base K)
    (hb : b.attrs.map Prod.fst = need) :
    Spec.SameDict Eq d (readAttrs b (d.map fun kv => (kv.1, kv.2.text))).attrs := by
  obtain ⟨h1, h2, h3⟩ := h
  intro k
  rw [readAttrs_get _ _ (by rw [keys_text]; exact h1), Dict.get?_map]
  cases hk : d.get? k with
  | none =>
    simp only [Option.map_none]
    have : b.attrs.get? k = none := by
      rw [Dict.get?_eq_none, hb]
      intro hm
      exact (Dict.get?_eq_none _ _).mp hk (h2 k hm)
    rw [this]
    exact .none
  | some v =>
    simp only [Option.map_some]
    rw [attr_back v (h3 _ (Dict.mem_of_get? _ _ _ hk))]
    exact .some rfl

theorem sameDict_eq (d d' : Dict AVal) (h : Spec.SameDict Eq d d') (k : String) : d'.get? k = d.get? k := by
  have := h k
  generalize Dict.get? d k = o at this
  generalize Dict.get? d' k = o' at this
  cases this with
  | none => rfl
  | some e => rw [e]

/-- The element of a dynamic parameter. -/
def dynElem (d : String) : Xml := .mk "DynamicParameter" [("param", d)] none []

/-- The element of a value. -/
def valElem (kv : String × Flt K) : Xml := .mk kv.1 [] (some (strOf kv.2)) []

section fold

variable {σ : Type} (st : σ → Xml → Py σ) (emb : Base K → σ) (compat : ℕ) (strict : Bool)

theorem readCommon_dyn (hf : hasFeature compat autodesk = true) (d : String) (b : Base K) :
    readCommon compat strict b (dynElem d).reparse = .ok (some { b with dyn := b.dyn ++ [d] }) := by
  have ht : elementType (dynElem d).reparse.tag = "DynamicParameter" := by
    rw [dynElem, reparse_mk]; show elementType "DynamicParameter" = _; decide
  have ha : (dynElem d).reparse.attrs.get? "param" = some d := by
    rw [dynElem, reparse_mk]; simp [Xml.attrs, Dict.get?]
  unfold readCommon
  simp only
  rw [if_neg (by rw [ht]; decide), if_pos ht, if_pos hf, ha]

theorem fold_dyn (hst : ∀ b b' c, readCommon compat strict b c = .ok (some b') →
      st (emb b) c = .ok (emb b')) (hf : hasFeature compat autodesk = true) (ds : List String)
    (b : Base K) : ((ds.map dynElem).map Xml.reparse).foldlM st (emb b) =
      .ok (emb { b with dyn := b.dyn ++ ds }) := by
  induction ds generalizing b with
  | nil => simp only [List.map_nil, List.foldlM_nil, List.append_nil]; rfl
  | cons d ds ih =>
    rw [List.map_cons, List.map_cons, List.foldlM_cons,
      hst _ _ _ (readCommon_dyn compat strict hf d b), py_ok_bind, ih]
    simp

theorem fold_elems (A : Arith K) (a0 : Dict AVal) (es : List (Elem K)) (xs : List Xml)
    (hw : es.mapM (Elem.write compat) = .ok xs)
    (he : ∀ e ∈ es, ∀ x, Elem.write compat e = .ok x → ∀ b : Base K, b.attrs = a0 →
      ∃ e', Spec.SameElem A e e' ∧ st (emb b) x.reparse = .ok (emb (b.addElement e')))
    (b : Base K) (hb : b.attrs = a0) :
    ∃ es', List.Forall₂ (Spec.SameElem A) es es' ∧
      (xs.map Xml.reparse).foldlM st (emb b) = .ok (emb { b with elements := b.elements ++ es' }) := by
  induction es generalizing xs b with
  | nil =>
    cases hw
    exact ⟨[], .nil, by simp only [List.map_nil, List.foldlM_nil, List.append_nil]; rfl⟩
  | cons e es ih =>
    rw [py_mapM_cons] at hw
    obtain ⟨x, h1, h2⟩ := py_bind_eq_ok.mp hw
    obtain ⟨xs', h3, h4⟩ := py_bind_eq_ok.mp h2
    cases h4
    obtain ⟨e', h5, h6⟩ := he e (List.mem_cons_self ..) x h1 b hb
    obtain ⟨es', h7, h8⟩ := ih xs' h3 (fun e he' => he e (List.mem_cons_of_mem _ he')) (b.addElement e') hb
    refine ⟨e' :: es', .cons h5 h7, ?_⟩
    rw [List.map_cons, List.foldlM_cons, h6, py_ok_bind, h8]
    simp [Base.addElement]

/-- Everything `writeBase` writes before the extra children. -/
theorem base_back (A : Arith K) (tag : String) (b : Base K) (extra : List Xml) (x : Xml)
    (hw : writeBase compat tag b extra = .ok x) (b0 : Base K) (hb0 : b0.values = [] ∧ b0.dyn = [] ∧
      b0.elements = []) (hst : ∀ b b' c, readCommon compat strict b c = .ok (some b') →
      st (emb b) c = .ok (emb b')) (hd : Spec.DynOk compat b) (vals : Dict (Flt K))
    (hv : ((b.values.map valElem).map Xml.reparse).foldlM st (emb b0) =
      .ok (emb { b0 with values := vals }))
    (he : ∀ e ∈ b.elements, ∀ x, Elem.write compat e = .ok x → ∀ b : Base K, b.attrs = b0.attrs →
      ∃ e', Spec.SameElem A e e' ∧ st (emb b) x.reparse = .ok (emb (b.addElement e'))) :
    ∃ es', List.Forall₂ (Spec.SameElem A) b.elements es' ∧
      x.reparse.tag = tag ∧ x.reparse.attrs = b.attrs.map (fun kv => (kv.1, kv.2.text)) ∧
      x.reparse.children.foldlM st (emb b0) =
        (extra.map Xml.reparse).foldlM st (emb ⟨b0.attrs, vals, b.dyn, es'⟩) := by
  unfold writeBase at hw
  obtain ⟨xs, h1, h2⟩ := py_bind_eq_ok.mp hw
  cases h2
  obtain ⟨es', h3, h4⟩ := fold_elems st emb compat A b0.attrs b.elements xs h1 he
    { b0 with values := vals, dyn := b0.dyn ++ b.dyn } rfl
  refine ⟨es', h3, by rw [reparse_mk]; rfl, by rw [reparse_mk]; rfl, ?_⟩
  rw [reparse_mk]
  simp only [Xml.children, List.map_append]
  have hv' : ((b.values.map fun kv : String × Flt K => Xml.mk kv.1 [] (some (strOf kv.2)) []).map
      Xml.reparse).foldlM st (emb b0) = .ok (emb { b0 with values := vals }) := hv
  have hd' : ((b.dyn.map fun d => Xml.mk "DynamicParameter" [("param", d)] none []).map
      Xml.reparse).foldlM st (emb { b0 with values := vals }) =
        .ok (emb { b0 with values := vals, dyn := b0.dyn ++ b.dyn }) := by
    rcases hd with hd | hd
    · rw [hd]; simp only [List.map_nil, List.foldlM_nil, List.append_nil]; rfl
    · exact fold_dyn st emb compat strict hst ((enabled_iff _ _).mp hd) b.dyn _
  rw [List.append_assoc, List.append_assoc, List.foldlM_append, hv', py_ok_bind, List.foldlM_append,
    hd', py_ok_bind, List.foldlM_append, h4, py_ok_bind, hb0.2.1, hb0.2.2]
  rfl

theorem description_back (A : Arith K) (hst : ∀ b b' c, readCommon compat strict b c = .ok (some b') →
      st (emb b) c = .ok (emb b')) (e : Elem K) (h : Spec.DescriptionOk e) (x : Xml)
    (hw : e.write compat = .ok x) (b : Base K) :
    ∃ e', Spec.SameElem A e e' ∧ st (emb b) x.reparse = .ok (emb (b.addElement e')) := by
  obtain ⟨t, rfl, ht⟩ := h
  cases hw
  refine ⟨_, rfl, hst _ _ _ ?_⟩
  unfold readCommon
  simp only
  rw [if_pos (by rw [reparse_mk]; show elementType "Description" = _; decide), reparse_mk]
  show Except.ok (some (b.addElement (.comment "Description" (Xml.normText t)))) = _
  rw [normText_of_ne _ ht]

end fold

/-! ## Leaf nodes -/

theorem flag_iff (b : Base K) (k : String) : b.flag k = true ↔ Spec.Flagged b k := by
  unfold Base.flag Spec.Flagged
  cases b.attrs.get? k with
  | none => simp
  | some v =>
    cases v with
    | bool c => cases c <;> simp
    | str s => simp
    | other s => simp

theorem integer_iff (b : Base K) :
    bitDepthIsInteger (b.attrs.get? "outBitDepth") = true ↔ Spec.IntegerOut b := by
  unfold bitDepthIsInteger Spec.IntegerOut depth
  simp [or_assoc]

theorem flagged_congr (b b' : Base K) (h : ∀ k, b'.attrs.get? k = b.attrs.get? k) (k : String) :
    Spec.Flagged b' k ↔ Spec.Flagged b k := by
  unfold Spec.Flagged; rw [h]

theorem integerOut_congr (b b' : Base K) (h : ∀ k, b'.attrs.get? k = b.attrs.get? k) :
    Spec.IntegerOut b' ↔ Spec.IntegerOut b := by
  unfold Spec.IntegerOut; rw [h]

theorem readLeafStep_common (A : Arith K) (compat : ℕ) (strict : Bool) (k : Kind K) (b b' : Base K)
    (c : Xml) (h : readCommon compat strict b c = .ok (some b')) :
    readLeafStep A compat strict (k, b) c = .ok (k, b') := by
  unfold readLeafStep
  rw [h]; rfl

theorem readLeafStep_other (A : Arith K) (compat : ℕ) (strict : Bool) (k : Kind K) (b : Base K)
    (c : Xml) (h1 : elementType c.tag ≠ "Description") (h2 : elementType c.tag ≠ "DynamicParameter") :
    readLeafStep A compat strict (k, b) c = readLeafChild A k b c := by
  unfold readLeafStep readCommon
  simp only
  rw [if_neg h1, if_neg h2]
  rfl

theorem reparse_tag (x : Xml) : x.reparse.tag = x.tag := by
  cases x; rw [reparse_mk]; rfl

theorem array_tag (compat : ℕ) (a : Arr K) (x : Xml) (h : a.write compat = .ok x) : x.tag = "Array" := by
  obtain ⟨_, _, _, _, _, _, rfl⟩ := SArr.write_eq h
  rfl

theorem indexMap_tag (m : IndexMap K) (x : Xml) (h : m.write = .ok x) : x.tag = "IndexMap" := by
  unfold IndexMap.write at h
  obtain ⟨ts, _, h2⟩ := py_bind_eq_ok.mp h
  by_cases hl : m.inputs.length ≠ m.outputs.length
  · rw [if_pos hl] at h2; cases h2
  · rw [if_neg hl] at h2; cases h2; rfl

theorem readArrayChild_back (A : Arith K) (compat : ℕ) (b : Base K) (a : Arr K) (x : Xml) (raw : Prop)
    (ha : Spec.ArrayOk (Spec.IntegerOut b) raw a) (hw : a.write compat = .ok x) (b0 : Base K)
    (hb : ∀ k, b0.attrs.get? k = b.attrs.get? k) (r : Bool) (hr : r = true ↔ raw) :
    ∃ e', Spec.SameElem A (.array a) e' ∧ readArrayChild A b0 r x.reparse = .ok (b0.addElement e') := by
  obtain ⟨vs, h1, h2⟩ := Arr.read_write A compat a x _ _ ha hw
  have hr' : r = a.rawHalfs := by
    rw [Bool.eq_iff_iff, hr, ha.2.1]
  have hi : bitDepthIsInteger (b0.attrs.get? "outBitDepth") = a.integers := by
    rw [Bool.eq_iff_iff, integer_iff, ha.1, integerOut_congr b b0 hb]
  refine ⟨_, ⟨⟨a.dims, vs, a.integers, a.rawHalfs, a.floatEncoding⟩, rfl, ?_⟩, ?_⟩
  · exact ⟨rfl, rfl, rfl, rfl, h2⟩
  · unfold readArrayChild
    rw [hr', h1, py_ok_bind, hi]
    rfl

theorem leafElem_back (A : Arith K) (compat : ℕ) (strict : Bool) (k k0 : Kind K)
    (hk : k = .matrix ∨ k = .lut1d ∨ k = .lut3d → k0 = k) (b : Base K) (e : Elem K)
    (he : Spec.LeafElemOk k b e) (x : Xml) (hw : e.write compat = .ok x) (b0 : Base K)
    (hb : ∀ k, b0.attrs.get? k = b.attrs.get? k) :
    ∃ e', Spec.SameElem A e e' ∧
      readLeafStep A compat strict (k0, b0) x.reparse = .ok (k0, b0.addElement e') := by
  rcases he with he | ⟨hkk, a, rfl, ha⟩ | ⟨rfl, a, rfl, ha⟩ | ⟨hkk, m, rfl, hm⟩
  · exact description_back (readLeafStep A compat strict) (fun b => (k0, b)) compat strict A
      (readLeafStep_common A compat strict k0) e he x hw b0
  · have ht : elementType x.reparse.tag = "Array" := by
      rw [reparse_tag, array_tag compat a x hw]; decide
    obtain ⟨e', h1, h2⟩ := readArrayChild_back A compat b a x _ ha hw b0 hb false (by simp)
    refine ⟨e', h1, ?_⟩
    rw [readLeafStep_other _ _ _ _ _ _ (by rw [ht]; decide) (by rw [ht]; decide)]
    rcases hkk with rfl | rfl
    · rw [hk (by simp)]
      unfold readLeafChild
      simp only [ht, if_true, h2, py_ok_bind]
      rfl
    · rw [hk (by simp)]
      unfold readLeafChild
      simp only [ht, if_true, h2, py_ok_bind]
      rfl
  · have ht : elementType x.reparse.tag = "Array" := by
      rw [reparse_tag, array_tag compat a x hw]; decide
    obtain ⟨e', h1, h2⟩ := readArrayChild_back A compat b a x _ ha hw b0 hb (b0.flag "rawHalfs")
      (by rw [flag_iff, flagged_congr b b0 hb])
    refine ⟨e', h1, ?_⟩
    rw [readLeafStep_other _ _ _ _ _ _ (by rw [ht]; decide) (by rw [ht]; decide), hk (by simp)]
    unfold readLeafChild
    simp only [ht, if_true, h2, py_ok_bind]
    rfl
  · have ht : elementType x.reparse.tag = "IndexMap" := by
      rw [reparse_tag, indexMap_tag m x hw]; decide
    have hr := IndexMap.read_write hw hm.1 ⟨0, [], []⟩
    rw [int_outputs m hm.2] at hr
    refine ⟨_, ⟨⟨m.dimension, m.inputs.map reread, m.outputs⟩, rfl, ?_⟩, ?_⟩
    · exact ⟨rfl, printed_all _, rfl⟩
    · rw [readLeafStep_other _ _ _ _ _ _ (by rw [ht]; decide) (by rw [ht]; decide)]
      have h2 : readIndexMapChild b0 x.reparse = .ok (b0.addElement (.indexMap
          ⟨m.dimension, m.inputs.map reread, m.outputs⟩)) := by
        unfold readIndexMapChild
        rw [hr]; rfl
      rcases hkk with rfl | rfl
      · rw [hk (by simp)]
        unfold readLeafChild
        simp only [ht, h2, py_ok_bind]
        rfl
      · rw [hk (by simp)]
        unfold readLeafChild
        simp only [ht, h2, py_ok_bind]
        rfl

/-! ## The particular data of the classes -/

/-- The class as constructed, before reading. -/
def initKind : Kind K → Kind K
  | .cdl cc _ => .cdl cc {}
  | .exposureContrast _ _ _ => .exposureContrast (.fin 0) (.fin 1) (.fin 1)
  | .gamma _ => .gamma []
  | .log _ => .log []
  | k => k

/-- The common part as constructed. -/
def initBase : Kind K → Base K
  | .range => defaultBase
  | .matrix => defaultBase
  | .lut1d => newLut1d (.str "16f") (.str "16f") (.str "") (.str "")
  | .lut3d => newLut3d (.str "16f") (.str "16f") (.str "") (.str "")
  | .cdl false _ => defaultBase.setAttribute "style" (.str "Fwd")
  | .cdl true _ => ⟨[("id", .str "")], [], [], []⟩
  | .exposureContrast _ _ _ => defaultBase.setAttribute "style" (.str "linear")
  | .gamma _ => defaultBase.setAttribute "style" (.str "basicFwd")
  | .log _ => defaultBase.setAttribute "style" (.str "log10")
  | .plain => defaultBase

theorem classOf_tag (k : Kind K) (h : Spec.KindOk k) :
    classOf (elementType k.tag) = some (.leaf (initKind k) (initBase k)) := by
  have key : ∀ (k : Kind K) (t u : String), k.tag = t → elementType t = u →
      classOf u = some (.leaf (initKind k) (initBase k)) →
      classOf (elementType k.tag) = some (.leaf (initKind k) (initBase k)) := by
    intro k t u h1 h2 h3; rw [h1, h2, h3]
  cases k with
  | plain => exact h.elim
  | cdl cc v =>
    cases cc
    · exact key _ "ASC_CDL" "ASCCDL" rfl (by decide) rfl
    · exact key _ "ColorCorrection" "ColorCorrection" rfl (by decide) rfl
  | range => exact key _ "Range" "Range" rfl (by decide) rfl
  | matrix => exact key _ "Matrix" "Matrix" rfl (by decide) rfl
  | lut1d => exact key _ "LUT1D" "LUT1D" rfl (by decide) rfl
  | lut3d => exact key _ "LUT3D" "LUT3D" rfl (by decide) rfl
  | exposureContrast e c p => exact key _ "ExposureContrast" "ExposureContrast" rfl (by decide) rfl
  | gamma ps => exact key _ "Gamma" "Gamma" rfl (by decide) rfl
  | log ps => exact key _ "Log" "Log" rfl (by decide) rfl

theorem initBase_keys (k : Kind K) (h : Spec.KindOk k) :
    (initBase k).attrs.map Prod.fst = Spec.keysOf k := by
  cases k with
  | cdl cc v => cases cc <;> rfl
  | plain => exact h.elim
  | _ => rfl

theorem initBase_empty (k : Kind K) :
    (initBase k).values = [] ∧ (initBase k).dyn = [] ∧ (initBase k).elements = [] := by
  cases k with
  | cdl cc v => cases cc <;> exact ⟨rfl, rfl, rfl⟩
  | _ => exact ⟨rfl, rfl, rfl⟩

theorem optRel_map {α : Type} (R : α → α → Prop) (f : α → α) (h : ∀ a, R a (f a)) (o : Option α) :
    Option.Rel R o (o.map f) := by
  cases o with
  | none => exact .none
  | some a => exact .some (h a)

theorem sop_slope (v : CdlValues K) (o : Option (List (Flt K))) (ho : o ≠ some []) (hv : v.slope = none) :
    ((optElem "Slope" (o.map strsOf)).map Xml.reparse).foldlM readSop v =
      .ok { v with slope := o.map (List.map reread) } := by
  cases o with
  | none => cases v; cases hv; rfl
  | some l =>
    have hl : l ≠ [] := fun e => ho (by rw [e])
    simp only [Option.map_some, optElem, List.map_cons, List.map_nil, List.foldlM_cons, List.foldlM_nil]
    rw [reparse_mk, normText_of_ne _ fun e => strsOf_ne l hl (Option.some.inj e)]
    have : readSop v (.mk "Slope" [] (some (strsOf l)) (List.map Xml.reparse [])) =
        (do pure { v with slope := some (← floatsOfText (some (strsOf l))) }) := by
      unfold readSop
      simp only
      rw [if_pos (by show elementType "Slope" = _; decide)]
      rfl
    rw [this, floatsOfText_strsOf]; rfl

theorem sop_offset (v : CdlValues K) (o : Option (List (Flt K))) (ho : o ≠ some []) (hv : v.offset = none) :
    ((optElem "Offset" (o.map strsOf)).map Xml.reparse).foldlM readSop v =
      .ok { v with offset := o.map (List.map reread) } := by
  cases o with
  | none => cases v; cases hv; rfl
  | some l =>
    have hl : l ≠ [] := fun e => ho (by rw [e])
    simp only [Option.map_some, optElem, List.map_cons, List.map_nil, List.foldlM_cons, List.foldlM_nil]
    rw [reparse_mk, normText_of_ne _ fun e => strsOf_ne l hl (Option.some.inj e)]
    have : readSop v (.mk "Offset" [] (some (strsOf l)) (List.map Xml.reparse [])) =
        (do pure { v with offset := some (← floatsOfText (some (strsOf l))) }) := by
      unfold readSop
      simp only
      rw [if_neg (by show elementType "Offset" ≠ _; decide), if_pos (by show elementType "Offset" = _; decide)]
      rfl
    rw [this, floatsOfText_strsOf]; rfl

theorem sop_power (v : CdlValues K) (o : Option (List (Flt K))) (ho : o ≠ some []) (hv : v.power = none) :
    ((optElem "Power" (o.map strsOf)).map Xml.reparse).foldlM readSop v =
      .ok { v with power := o.map (List.map reread) } := by
  cases o with
  | none => cases v; cases hv; rfl
  | some l =>
    have hl : l ≠ [] := fun e => ho (by rw [e])
    simp only [Option.map_some, optElem, List.map_cons, List.map_nil, List.foldlM_cons, List.foldlM_nil]
    rw [reparse_mk, normText_of_ne _ fun e => strsOf_ne l hl (Option.some.inj e)]
    have : readSop v (.mk "Power" [] (some (strsOf l)) (List.map Xml.reparse [])) =
        (do pure { v with power := some (← floatsOfText (some (strsOf l))) }) := by
      unfold readSop
      simp only
      rw [if_neg (by show elementType "Power" ≠ _; decide), if_neg (by show elementType "Power" ≠ _; decide), if_pos (by show elementType "Power" = _; decide)]
      rfl
    rw [this, floatsOfText_strsOf]; rfl

theorem sat_back (v : CdlValues K) (o : Option (Flt K)) (hv : v.saturation = none) :
    ((optElem "Saturation" (o.map strOf)).map Xml.reparse).foldlM readSat v =
      .ok { v with saturation := o.map reread } := by
  cases o with
  | none => cases v; cases hv; rfl
  | some x =>
    simp only [Option.map_some, optElem, List.map_cons, List.map_nil, List.foldlM_cons, List.foldlM_nil]
    rw [reparse_mk, normText_strOf]
    have : readSat v (.mk "Saturation" [] (some (strOf x)) (List.map Xml.reparse [])) =
        (do pure { v with saturation := some (← floatOfText (some (strOf x))) }) := by
      unfold readSat
      rw [if_pos (by show elementType "Saturation" = _; decide)]
      rfl
    rw [this, floatOfText_strOf]; rfl

theorem cdl_extra_back (A : Arith K) (compat : ℕ) (strict : Bool) (cc : Bool) (v : CdlValues K)
    (h : Spec.KindOk (.cdl cc v)) (b : Base K) :
    ((cdlExtra v).map Xml.reparse).foldlM (readLeafStep A compat strict) (.cdl cc {}, b) =
      .ok (.cdl cc ⟨v.slope.map (List.map reread), v.offset.map (List.map reread),
        v.power.map (List.map reread), v.saturation.map reread⟩, b) := by
  obtain ⟨h1, h2, h3⟩ := h
  unfold cdlExtra
  simp only [List.map_cons, List.map_nil, List.foldlM_cons, List.foldlM_nil]
  rw [reparse_mk, reparse_mk]
  have hs : ∀ (c : List Xml), readLeafStep A compat strict (.cdl cc {}, b) (.mk "SOPNode" []
      (Xml.normText none) c) = (do pure (.cdl cc (← c.foldlM readSop {}), b)) := by
    intro c
    rw [readLeafStep_other _ _ _ _ _ _ (by show elementType "SOPNode" ≠ _; decide)
      (by show elementType "SOPNode" ≠ _; decide)]
    unfold readLeafChild readCdlChild
    simp only
    rw [if_pos (by show lower (elementType "SOPNode").toList = _; decide)]
    rfl
  have ht : ∀ (w : CdlValues K) (c : List Xml), readLeafStep A compat strict (.cdl cc w, b)
      (.mk "SatNode" [] (Xml.normText none) c) = (do pure (.cdl cc (← c.foldlM readSat w), b)) := by
    intro w c
    rw [readLeafStep_other _ _ _ _ _ _ (by show elementType "SatNode" ≠ _; decide)
      (by show elementType "SatNode" ≠ _; decide)]
    unfold readLeafChild readCdlChild
    simp only
    rw [if_neg (by show ¬ lower (elementType "SatNode").toList = _; decide),
      if_pos (by show lower (elementType "SatNode").toList = _; decide)]
    rfl
  rw [hs, List.map_append, List.map_append, List.foldlM_append, List.foldlM_append,
    sop_slope _ _ h1 rfl, py_ok_bind, sop_offset _ _ h2 rfl, py_ok_bind, sop_power _ _ h3 rfl,
    py_ok_bind]
  simp only [py_pure, py_ok_bind]
  rw [ht, sat_back _ _ rfl]
  rfl

theorem ec_extra_back (A : Arith K) (compat : ℕ) (strict : Bool) (e c p : Flt K) (k : Kind K)
    (hk : ∃ e c p, k = .exposureContrast e c p) (b : Base K) :
    ((Kind.extra (.exposureContrast e c p)).map Xml.reparse).foldlM (readLeafStep A compat strict)
      (k, b) = .ok (.exposureContrast (reread e) (reread c) (reread p), b) := by
  obtain ⟨e0, c0, p0, rfl⟩ := hk
  simp only [Kind.extra, List.map_cons, List.map_nil, List.foldlM_cons, List.foldlM_nil]
  rw [reparse_mk, readLeafStep_other _ _ _ _ _ _ (by show elementType "ECParams" ≠ _; decide)
      (by show elementType "ECParams" ≠ _; decide)]
  have : ∀ x : Xml, x.tag = "ECParams" →
      readLeafChild A (.exposureContrast e0 c0 p0) b x = (do
      let e ← floatAttr x "exposure" (.fin 0)
      let ct ← floatAttr x "contrast" (.fin 1)
      let p ← floatAttr x "pivot" (.fin 1)
      pure (.exposureContrast e ct p, b)) := by
    intro x hx
    unfold readLeafChild
    simp only [hx]
    rw [if_pos (by decide)]
  rw [this _ rfl]
  have h1 : ∀ (x : Xml) (key : String) (d y : Flt K), x.attrs.get? key = some (strOf y) →
      floatAttr x key d = .ok (reread y) := by
    intro x key d y hx
    unfold floatAttr
    rw [hx]; exact floatOfText_strOf y
  rw [h1 _ "exposure" _ e rfl, h1 _ "contrast" _ c rfl, h1 _ "pivot" _ p rfl]
  rfl

theorem floatAttr_back (x : Xml) (key : String) (d y : Flt K) (h : x.attrs.get? key = some (strOf y)) :
    floatAttr x key d = .ok (reread y) := by
  unfold floatAttr
  rw [h]; exact floatOfText_strOf y

theorem reread_zero : reread (.fin (0 : K)) = .fin 0 :=
  dec12_digits 0 ⟨0, 0, by norm_num, .inl (by simp)⟩

theorem gamma_step (A : Arith K) (compat : ℕ) (strict : Bool) (p : GammaParam K)
    (ps : List (GammaParam K)) (b : Base K) :
    readLeafStep A compat strict (.gamma ps, b) (gammaElem p).reparse =
      .ok (.gamma (ps ++ [⟨reread p.gamma, reread p.offset, p.channel⟩]), b) := by
  obtain ⟨g, o, ch⟩ := p
  have ht : elementType (gammaElem (⟨g, o, ch⟩ : GammaParam K)).reparse.tag = "GammaParams" := by
    rw [reparse_tag]; show elementType "GammaParams" = _; decide
  rw [readLeafStep_other _ _ _ _ _ _ (by rw [ht]; decide) (by rw [ht]; decide)]
  unfold readLeafChild
  simp only [ht, if_true]
  have hg : (gammaElem (⟨g, o, ch⟩ : GammaParam K)).reparse.attrs.get? "gamma" = some (strOf g) := by
    rw [gammaElem, reparse_mk]; simp [Xml.attrs, Dict.get?]
  have hc : (gammaElem (⟨g, o, ch⟩ : GammaParam K)).reparse.attrs.get? "channel" = ch := by
    rw [gammaElem, reparse_mk]
    by_cases h : o = .fin 0 <;> cases ch <;> simp [Xml.attrs, Dict.get?, channelAttr, h]
  have ho : floatAttr (gammaElem (⟨g, o, ch⟩ : GammaParam K)).reparse "offset" (.fin 0) =
      .ok (reread o) := by
    by_cases h : o = .fin 0
    · subst h
      rw [reread_zero]
      unfold floatAttr
      have : (gammaElem (⟨g, .fin 0, ch⟩ : GammaParam K)).reparse.attrs.get? "offset" = none := by
        rw [gammaElem, reparse_mk]
        cases ch <;> simp [Xml.attrs, Dict.get?, channelAttr]
      rw [this]
    · apply floatAttr_back
      rw [gammaElem, reparse_mk]
      cases ch <;> simp [Xml.attrs, Dict.get?, h]
  rw [floatAttr_back _ _ _ _ hg, ho, hc]
  rfl

theorem gamma_extra_back (A : Arith K) (compat : ℕ) (strict : Bool) (ps qs : List (GammaParam K))
    (b : Base K) :
    ((ps.map gammaElem).map Xml.reparse).foldlM (readLeafStep A compat strict) (.gamma qs, b) =
      .ok (.gamma (qs ++ ps.map fun p => ⟨reread p.gamma, reread p.offset, p.channel⟩), b) := by
  induction ps generalizing qs with
  | nil => simp only [List.map_nil, List.foldlM_nil, List.append_nil]; rfl
  | cons p ps ih =>
    rw [List.map_cons, List.map_cons, List.foldlM_cons, gamma_step, py_ok_bind, ih]
    simp

theorem log_step (A : Arith K) (compat : ℕ) (strict : Bool) (p : LogParam K)
    (ps : List (LogParam K)) (b : Base K) :
    readLeafStep A compat strict (.log ps, b) (logElem p).reparse =
      .ok (.log (ps ++ [⟨reread p.gamma, reread p.refWhite, reread p.refBlack, reread p.highlight,
        reread p.shadow, p.channel⟩]), b) := by
  obtain ⟨g, w, bl, h, s, ch⟩ := p
  have ht : elementType (logElem (⟨g, w, bl, h, s, ch⟩ : LogParam K)).reparse.tag = "LogParams" := by
    rw [reparse_tag]; show elementType "LogParams" = _; decide
  rw [readLeafStep_other _ _ _ _ _ _ (by rw [ht]; decide) (by rw [ht]; decide)]
  unfold readLeafChild
  simp only [ht, if_true]
  have hx : (logElem (⟨g, w, bl, h, s, ch⟩ : LogParam K)).reparse.attrs =
      [("gamma", strOf g), ("refWhite", strOf w), ("refBlack", strOf bl), ("highlight", strOf h),
        ("shadow", strOf s)] ++ channelAttr ch := by
    rw [logElem, reparse_mk]; rfl
  rw [floatAttr_back _ "gamma" _ g (by rw [hx]; simp [Dict.get?]),
    floatAttr_back _ "refWhite" _ w (by rw [hx]; simp [Dict.get?]),
    floatAttr_back _ "refBlack" _ bl (by rw [hx]; simp [Dict.get?]),
    floatAttr_back _ "highlight" _ h (by rw [hx]; simp [Dict.get?]),
    floatAttr_back _ "shadow" _ s (by rw [hx]; simp [Dict.get?]), hx]
  have hc : Dict.get? ([("gamma", strOf g), ("refWhite", strOf w), ("refBlack", strOf bl),
      ("highlight", strOf h), ("shadow", strOf s)] ++ channelAttr ch) "channel" = ch := by
    cases ch <;> simp [Dict.get?, channelAttr]
  rw [hc]
  rfl

theorem log_extra_back (A : Arith K) (compat : ℕ) (strict : Bool) (ps qs : List (LogParam K))
    (b : Base K) :
    ((ps.map logElem).map Xml.reparse).foldlM (readLeafStep A compat strict) (.log qs, b) =
      .ok (.log (qs ++ ps.map fun p => ⟨reread p.gamma, reread p.refWhite, reread p.refBlack,
        reread p.highlight, reread p.shadow, p.channel⟩), b) := by
  induction ps generalizing qs with
  | nil => simp only [List.map_nil, List.foldlM_nil, List.append_nil]; rfl
  | cons p ps ih =>
    rw [List.map_cons, List.map_cons, List.foldlM_cons, log_step, py_ok_bind, ih]
    simp

theorem extra_back (A : Arith K) (compat : ℕ) (strict : Bool) (k : Kind K) (h : Spec.KindOk k)
    (b : Base K) : ∃ k', Spec.SameKind k k' ∧
      (k.extra.map Xml.reparse).foldlM (readLeafStep A compat strict) (initKind k, b) = .ok (k', b) := by
  cases k with
  | range => exact ⟨_, rfl, rfl⟩
  | matrix => exact ⟨_, rfl, rfl⟩
  | lut1d => exact ⟨_, rfl, rfl⟩
  | lut3d => exact ⟨_, rfl, rfl⟩
  | cdl cc v =>
    refine ⟨_, ?_, cdl_extra_back A compat strict cc v h b⟩
    exact ⟨_, rfl, optRel_map _ _ printed_all _, optRel_map _ _ printed_all _,
      optRel_map _ _ printed_all _, optRel_map _ _ printed_reread _⟩
  | exposureContrast e c p =>
    refine ⟨_, ?_, ec_extra_back A compat strict e c p _ ⟨_, _, _, rfl⟩ b⟩
    exact ⟨_, _, _, rfl, printed_reread _, printed_reread _, printed_reread _⟩
  | gamma ps =>
    refine ⟨_, ?_, gamma_extra_back A compat strict ps [] b⟩
    exact ⟨_, rfl, forall₂_map _ _ _ fun p _ => ⟨printed_reread _, printed_reread _, rfl⟩⟩
  | log ps =>
    refine ⟨_, ?_, log_extra_back A compat strict ps [] b⟩
    exact ⟨_, rfl, forall₂_map _ _ _ fun p _ => ⟨printed_reread _, printed_reread _,
      printed_reread _, printed_reread _, printed_reread _, rfl⟩⟩
  | plain => exact h.elim

theorem values_back (A : Arith K) (compat : ℕ) (strict : Bool) (k : Kind K) (d : Dict (Flt K))
    (h : Spec.ValuesOk k d) (b : Base K) (hb : b.values = []) :
    ∃ vals, Spec.SameDict Spec.Printed d vals ∧
      ((d.map valElem).map Xml.reparse).foldlM (readLeafStep A compat strict) (initKind k, b) =
        .ok (initKind k, { b with values := vals }) := by
  rcases h with rfl | ⟨rfl, hnd, hkeys⟩
  · refine ⟨[], fun k => .none, ?_⟩
    cases b; cases hb; rfl
  · have hstep : ∀ (l : Dict (Flt K)) (b : Base K), (∀ kv ∈ l, kv.1 ∈
        ["minInValue", "maxInValue", "minOutValue", "maxOutValue"]) →
        ((l.map valElem).map Xml.reparse).foldlM (readLeafStep A compat strict) (.range, b) =
          .ok (.range, { b with values := l.foldl (fun d kv => Dict.set d kv.1 (reread kv.2)) b.values }) := by
      intro l
      induction l with
      | nil => intro b _; rfl
      | cons p l ih =>
        intro b hl
        obtain ⟨q, w⟩ := p
        have hq := hl _ (List.mem_cons_self ..)
        simp only at hq
        have ht : elementType q = q ∧ isRangeValue q = true ∧ q ≠ "Description" ∧
            q ≠ "DynamicParameter" := by
          simp only [List.mem_cons, List.not_mem_nil, or_false] at hq
          rcases hq with rfl | rfl | rfl | rfl <;> decide
        have h1 : readLeafStep A compat strict (.range, b) (valElem (q, w)).reparse =
            .ok (.range, { b with values := b.values.set q (reread w) }) := by
          have htag : elementType (valElem (q, w)).reparse.tag = q := by
            rw [reparse_tag]; exact ht.1
          rw [readLeafStep_other _ _ _ _ _ _ (by rw [htag]; exact ht.2.2.1)
            (by rw [htag]; exact ht.2.2.2)]
          unfold readLeafChild
          simp only [htag, ht.2.1, if_true]
          have hx : (valElem (q, w)).reparse.text = some (strOf w) := by
            rw [valElem, reparse_mk, normText_strOf]; rfl
          rw [hx, floatOfText_strOf]; rfl
        rw [List.map_cons, List.map_cons, List.foldlM_cons, h1, py_ok_bind,
          ih _ fun kv hkv => hl kv (List.mem_cons_of_mem _ hkv)]
        rfl
    refine ⟨_, ?_, hstep d b hkeys⟩
    intro k
    rw [Dict.get?_foldl_set _ _ hnd, hb]
    cases d.get? k with
    | none => exact .none
    | some v => exact .some (printed_reread v)

theorem leaf_back (A : Arith K) (compat : ℕ) (load : String → Py (Option (List (Node K)))) (strict : Bool)
    (k : Kind K) (b : Base K) (hk : Spec.KindOk k) (ha : Spec.AttrsOk (Spec.keysOf k) b.attrs)
    (hv : Spec.ValuesOk k b.values) (hd : Spec.DynOk compat b)
    (he : ∀ e ∈ b.elements, Spec.LeafElemOk k b e) (x : Xml)
    (hw : writeBase compat k.tag b k.extra = .ok x) :
    ∃ n, readNode A compat load strict x.reparse = .ok n ∧ Spec.SameNode A (.leaf k b) n := by
  have hx : x.reparse.tag = k.tag ∧ x.reparse.attrs = b.attrs.map fun kv => (kv.1, kv.2.text) := by
    unfold writeBase at hw
    obtain ⟨xs, _, h2⟩ := py_bind_eq_ok.mp hw
    cases h2
    rw [reparse_mk]
    exact ⟨rfl, rfl⟩
  have hattr := attrs_back _ _ ha (initBase k) (initBase_keys k hk)
  have hempty : ∀ l, (readAttrs (initBase k) l).values = [] ∧ (readAttrs (initBase k) l).dyn = [] ∧
      (readAttrs (initBase k) l).elements = [] := by
    intro l; rw [readAttrs_eq]; exact initBase_empty k
  generalize hb0 : readAttrs (initBase k) (b.attrs.map fun kv => (kv.1, kv.2.text)) = b0 at hattr
  have hempty : b0.values = [] ∧ b0.dyn = [] ∧ b0.elements = [] := hb0 ▸ hempty _
  obtain ⟨vals, hv1, hv2⟩ := values_back A compat strict k b.values hv b0 hempty.1
  obtain ⟨es', h1, -, -, h4⟩ := base_back (readLeafStep A compat strict) (fun b => (initKind k, b))
    compat strict A k.tag b k.extra x hw b0 hempty (readLeafStep_common A compat strict _) hd vals hv2
    (fun e hm y hy c hc => leafElem_back A compat strict k (initKind k)
      (by rintro (rfl | rfl | rfl) <;> rfl) b e (he e hm) y hy c
      (by rw [hc]; exact sameDict_eq _ _ hattr))
  obtain ⟨k', h5, h6⟩ := extra_back A compat strict k hk ⟨b0.attrs, vals, b.dyn, es'⟩
  refine ⟨.leaf k' ⟨b0.attrs, vals, b.dyn, es'⟩, ?_, .leaf h5 ⟨hattr, hv1, rfl, h1⟩⟩
  rw [readNode_mk, hx.1, classOf_tag k hk]
  simp only
  unfold readLeaf
  rw [hx.2, hb0]
  rw [h4, h6]
  rfl

end CLF
