import Verif.Model.Metadata
import Verif.Lemmas.Dict
import Verif.Props.ImageConvert

/-!
# C113: the metadata of a filtered image
-/

set_option linter.unusedSectionVars false

namespace CLF

variable {K : Type} [Field K] [LinearOrder K] [IsStrictOrderedRing K] [FloorRing K]

/-- The attributes of the result: those of the source, except for the number of bits, and for
the compression and its quality if they are asked for. -/
structure Spec.Attributes (metadata out : Dict MetaVal) (bits : Option ℕ) (compression : Option String)
    (quality : Option ℤ) : Prop where
  bits : out.get? "oiio:BitsPerSample" = bits.map fun (n : ℕ) => MetaVal.int n
  compression : out.get? "compression" =
    (compression.map MetaVal.text).or (metadata.get? "compression")
  quality : out.get? "CompressionQuality" =
    (quality.map MetaVal.int).or (metadata.get? "CompressionQuality")
  rest : ∀ name, name ≠ "oiio:BitsPerSample" → name ≠ "compression" → name ≠ "CompressionQuality" →
    out.get? name = metadata.get? name

theorem copy_get (metadata : Dict MetaVal) (hn : (metadata.map Prod.fst).Nodup) (d : AVal) (n : ℕ)
    (hd : depthBits d = .ok n) : ∃ spec, copyAttributes metadata d = .ok spec ∧
      ∀ name, spec.get? name = if name = "oiio:BitsPerSample" then (metadata.get? name).map fun _ => .int n
        else metadata.get? name := by
  let f : String × MetaVal → MetaVal := fun a => if a.1 = "oiio:BitsPerSample" then .int n else a.2
  have hfold : ∀ (l : Dict MetaVal) (s : Dict MetaVal), (l.foldlM (init := s) fun spec attr =>
      if attr.1 = "oiio:BitsPerSample" then do
        let n ← depthBits d
        pure (spec.set attr.1 (.int n))
      else pure (spec.set attr.1 attr.2)) = (.ok (l.foldl (fun s a => s.set a.1 (f a)) s) : Py (Dict MetaVal)) := by
    intro l
    induction l with
    | nil => intro s; rfl
    | cons a l ih =>
      intro s
      rw [List.foldlM_cons, List.foldl_cons]
      by_cases h : a.1 = "oiio:BitsPerSample"
      · have e : (do
            let n ← depthBits d
            pure (s.set a.1 (.int n)) : Py (Dict MetaVal)) = .ok (s.set a.1 (.int n)) := by rw [hd]; rfl
        rw [if_pos h, e, py_ok_bind, ih]
        simp only [f, if_pos h]
      · rw [if_neg h, py_pure, py_ok_bind, ih]
        simp only [f, if_neg h]
  have hget : ∀ (l : Dict MetaVal) (s : Dict MetaVal), (l.map Prod.fst).Nodup → ∀ name,
      (l.foldl (fun s a => s.set a.1 (f a)) s).get? name =
        ((l.get? name).map fun v => f (name, v)).or (s.get? name) := by
    intro l
    induction l with
    | nil => intro s _ name; simp [Dict.get?]
    | cons a l ih =>
      intro s hl name
      rw [List.map_cons, List.nodup_cons] at hl
      rw [List.foldl_cons, ih _ hl.2, Dict.get?_set]
      by_cases h : name = a.1
      · subst h
        rw [(Dict.get?_eq_none l a.1).mpr hl.1]
        simp [Dict.get?]
      · have h' : a.1 ≠ name := Ne.symm h
        simp [Dict.get?, h, h']
  refine ⟨_, hfold metadata [], fun name => ?_⟩
  rw [hget metadata [] hn name]
  by_cases h : name = "oiio:BitsPerSample"
  · simp only [f, if_pos h]
    cases metadata.get? name <;> simp [Dict.get?]
  · simp only [f, if_neg h]
    cases metadata.get? name <;> simp [Dict.get?]

theorem copy_plain (metadata : Dict MetaVal) (d : AVal) (h : "oiio:BitsPerSample" ∉ metadata.map Prod.fst) :
    copyAttributes metadata d = copyAttributes metadata (.str "8i") := by
  unfold copyAttributes
  generalize ([] : Dict MetaVal) = s
  induction metadata generalizing s with
  | nil => rfl
  | cons a l ih =>
    rw [List.map_cons, List.mem_cons, not_or] at h
    rw [List.foldlM_cons, List.foldlM_cons, if_neg (Ne.symm h.1), if_neg (Ne.symm h.1), py_pure, py_ok_bind,
      py_ok_bind]
    exact ih h.2 _

/-- The end of `outputAttributes`. -/
theorem attributes_end (metadata spec : Dict MetaVal) (compression : Option String) (quality : ℤ)
    (bits : Option ℕ) (hb : spec.get? "oiio:BitsPerSample" = bits.map fun (n : ℕ) => MetaVal.int n)
    (hr : ∀ name, name ≠ "oiio:BitsPerSample" → spec.get? name = metadata.get? name) (out : Dict MetaVal)
    (h : out = if 0 < quality then
        (match compression with
          | none => spec
          | some c => if c = "" then spec else spec.set "compression" (.text c)).set "CompressionQuality"
            (.int quality)
      else match compression with
        | none => spec
        | some c => if c = "" then spec else spec.set "compression" (.text c)) :
    Spec.Attributes metadata out bits (compression.filter (· ≠ "")) (some quality |>.filter (0 < ·)) := by
  revert h
  obtain ⟨mid, hm, e1, e2, e3⟩ : ∃ mid : Dict MetaVal,
      (match compression with
        | none => spec
        | some c => if c = "" then spec else spec.set "compression" (.text c)) = mid ∧
      mid.get? "oiio:BitsPerSample" = bits.map (fun (n : ℕ) => MetaVal.int n) ∧
      mid.get? "compression" = ((compression.filter (· ≠ "")).map MetaVal.text).or (metadata.get? "compression") ∧
      ∀ name, name ≠ "oiio:BitsPerSample" → name ≠ "compression" → mid.get? name = metadata.get? name := by
    refine ⟨_, rfl, ?_⟩
    cases compression with
    | none => exact ⟨hb, by simpa using hr _ (by decide), fun name h1 _ => hr name h1⟩
    | some c =>
      by_cases hc : c = ""
      · simp only [hc, if_true]
        exact ⟨hb, by simpa [Option.filter_some] using hr _ (by decide), fun name h1 _ => hr name h1⟩
      · simp only [hc, if_false]
        refine ⟨by rw [Dict.get?_set]; simpa using hb, by rw [Dict.get?_set]; simp [Option.filter_some, hc], fun name h1 h2 => ?_⟩
        rw [Dict.get?_set, if_neg (by simpa [eq_comm] using h2)]
        exact hr name h1
  intro h
  rw [hm] at h
  subst h
  by_cases hq : 0 < quality
  · simp only [hq, if_true]
    constructor
    · rw [Dict.get?_set]
      simpa using e1
    · rw [Dict.get?_set]
      simpa using e2
    · rw [Dict.get?_set]
      simp [Option.filter_some, hq]
    · intro name h1 h2 h3
      rw [Dict.get?_set, if_neg (by simpa [eq_comm] using h3)]
      exact e3 name h1 h2
  · simp only [hq, if_false]
    constructor
    · exact e1
    · exact e2
    · rw [e3 _ (by decide) (by decide)]
      simp [Option.filter_some, hq]
    · exact fun name h1 h2 _ => e3 name h1 h2

/-- C113: an image written with integers has the attributes of its source, except that the
number of bits is that of its samples.  A compression is set if one is given, and its quality
if it is positive. -/
theorem C113_integers_partial (metadata : Dict MetaVal) (hn : (metadata.map Prod.fst).Nodup) (n : ℕ) (d : AVal)
    (hd : Spec.Width n d) (compression : Option String) (quality : ℤ) :
    ∃ out, outputAttributes metadata d compression quality = .ok out ∧
      Spec.Attributes metadata out (some n) (compression.filter (· ≠ "")) (some quality |>.filter (0 < ·)) := by
  have hbits : depthBits d = .ok n := by
    unfold Spec.Width at hd
    simp only [List.mem_cons, Prod.mk.injEq, List.not_mem_nil, or_false] at hd
    rcases hd with ⟨rfl, rfl⟩ | ⟨rfl, rfl⟩ | ⟨rfl, rfl⟩ | ⟨rfl, rfl⟩ <;> rfl
  have htype : ∃ t, depthType d = .ok t ∧ (t = .uint8 ∨ t = .uint16) := by
    unfold Spec.Width at hd
    simp only [List.mem_cons, Prod.mk.injEq, List.not_mem_nil, or_false] at hd
    rcases hd with ⟨rfl, rfl⟩ | ⟨rfl, rfl⟩ | ⟨rfl, rfl⟩ | ⟨rfl, rfl⟩ <;>
      simp [depthType]
  obtain ⟨t, ht, hti⟩ := htype
  obtain ⟨spec, hs, hg⟩ := copy_get metadata hn d n hbits
  unfold outputAttributes
  rw [ht, py_ok_bind, hs, py_ok_bind]
  by_cases hm : "oiio:BitsPerSample" ∈ metadata.map Prod.fst
  · rw [if_neg (by simp only [not_and, not_not]; exact fun _ => hm), py_pure, py_ok_bind]
    refine ⟨_, rfl, attributes_end metadata spec compression quality (some n) ?_ ?_ _ rfl⟩
    · rw [hg, if_pos rfl]
      cases h : metadata.get? "oiio:BitsPerSample" with
      | none => exact absurd hm ((Dict.get?_eq_none _ _).mp h)
      | some v => rfl
    · intro name h
      rw [hg, if_neg h]
  · rw [if_pos ⟨hti, hm⟩, hbits, py_ok_bind, py_pure, py_ok_bind]
    refine ⟨_, rfl, attributes_end metadata (spec.set "oiio:BitsPerSample" (.int n)) compression quality (some n)
      ?_ ?_ _ rfl⟩
    · rw [Dict.get?_set]
      simp
    · intro name h
      rw [Dict.get?_set, if_neg (by simpa [eq_comm] using h), hg, if_neg h]

/-- C113: the same for floats, if the source says nothing about its bits. -/
theorem C113_floats_partial (metadata : Dict MetaVal) (hn : (metadata.map Prod.fst).Nodup) (d : AVal)
    (hd : d = .str "16f" ∨ d = .str "32f") (hm : metadata.get? "oiio:BitsPerSample" = none)
    (compression : Option String) (quality : ℤ) :
    ∃ out, outputAttributes metadata d compression quality = .ok out ∧
      Spec.Attributes metadata out none (compression.filter (· ≠ "")) (some quality |>.filter (0 < ·)) := by
  have hm' := (Dict.get?_eq_none _ _).mp hm
  obtain ⟨spec, hs, hg⟩ := copy_get metadata hn (.str "8i") 8 rfl
  obtain ⟨t, ht, hti⟩ : ∃ t, depthType d = .ok t ∧ ¬ (t = .uint8 ∨ t = .uint16) := by
    rcases hd with rfl | rfl <;> simp [depthType]
  unfold outputAttributes
  rw [ht, py_ok_bind, copy_plain metadata d hm', hs, py_ok_bind, if_neg (fun h => hti h.1), py_pure, py_ok_bind]
  refine ⟨_, rfl, attributes_end metadata spec compression quality none ?_ ?_ _ rfl⟩
  · rw [hg, if_pos rfl, hm]
    rfl
  · intro name h
    rw [hg, if_neg h]

/-- C113 is false: an image that says how many bits its samples have cannot be written with
floats. -/
theorem C113_false (metadata : Dict MetaVal) (d : AVal) (hd : d = .str "16f" ∨ d = .str "32f")
    (hm : "oiio:BitsPerSample" ∈ metadata.map Prod.fst) (compression : Option String) (quality : ℤ) :
    outputAttributes metadata d compression quality = .error .keyError := by
  have hbits : depthBits d = .error .keyError := by
    rcases hd with rfl | rfl <;> rfl
  have hcopy : copyAttributes metadata d = .error .keyError := by
    unfold copyAttributes
    generalize ([] : Dict MetaVal) = s
    induction metadata generalizing s with
    | nil => simp at hm
    | cons a l ih =>
      rw [List.foldlM_cons]
      by_cases h : a.1 = "oiio:BitsPerSample"
      · rw [if_pos h, hbits]
        rfl
      · rw [if_neg h, py_pure, py_ok_bind]
        rw [List.map_cons, List.mem_cons] at hm
        exact ih (hm.resolve_left (Ne.symm h)) _
  unfold outputAttributes
  rw [hcopy]
  rcases hd with rfl | rfl <;> rfl

/-- C113: quality 0, the lowest of the usage text, is not set: the result has the quality of
the source, if any. -/
theorem C113_zero (metadata : Dict MetaVal) (d : AVal) (compression : Option String) :
    outputAttributes metadata d compression 0 = outputAttributes metadata d compression (-1) := rfl

/-- C113: the number of bits that the written image declares is the one among its
attributes. -/
theorem C113_declared (metadata : Dict MetaVal) (hn : (metadata.map Prod.fst).Nodup) (d : AVal)
    (compression : Option String) (quality : ℤ) (pixels : List (Flt K)) (src img : Image K)
    (hsrc : metadata.get? "oiio:BitsPerSample" = src.bits.map fun (n : ℕ) => MetaVal.int n)
    (hw : writePixelArray pixels d src = .ok img) :
    ∃ out, outputAttributes metadata d compression quality = .ok out ∧
      out.get? "oiio:BitsPerSample" = img.bits.map fun (n : ℕ) => MetaVal.int n := by
  by_cases hd : ∃ n, Spec.Width n d
  · obtain ⟨n, hd⟩ := hd
    obtain ⟨out, ho, ha⟩ := C113_integers_partial metadata hn n d hd compression quality
    refine ⟨out, ho, ?_⟩
    rw [write_words hd] at hw
    obtain ⟨l, -, h⟩ := py_bind_eq_ok.mp hw
    cases h
    exact ha.bits
  · by_cases hf : d = .str "16f" ∨ d = .str "32f"
    · cases hb : src.bits with
      | some n => rw [C87_metadata pixels src n hb d hf] at hw; cases hw
      | none =>
        rw [hb] at hsrc
        obtain ⟨out, ho, ha⟩ := C113_floats_partial metadata hn d hf hsrc compression quality
        refine ⟨out, ho, ?_⟩
        have : img.bits = none := by
          rcases hf with rfl | rfl <;> simp [writePixelArray, depthType, hb, py_pure] at hw <;> rw [← hw]
        rw [this]
        exact ha.bits
    · exfalso
      have : depthType d = .error .keyError := by
        unfold Spec.Width at hd
        simp only [List.mem_cons, Prod.mk.injEq, List.not_mem_nil, or_false, not_exists, not_or] at hd
        have h8 := (hd 8).1
        have h10 := (hd 10).2.1
        have h12 := (hd 12).2.2.1
        have h16 := (hd 16).2.2.2
        rw [not_or] at hf
        simp at h8 h10 h12 h16
        simp [depthType, h8, h10, h12, h16, hf.1, hf.2]
      unfold writePixelArray at hw
      rw [this] at hw
      cases hw

/-- The attributes of a 16-bit image written with 10 bits. -/
example : outputAttributes [("Artist", .text "A"), ("oiio:BitsPerSample", .int 16), ("compression", .text "lzw")]
    (.str "10i") (some "zip") 0 =
    .ok [("Artist", .text "A"), ("oiio:BitsPerSample", .int 10), ("compression", .text "zip")] := by rfl

/-- Written with floats, the number of bits is the difference between an image and none. -/
example : outputAttributes [("Artist", .text "A"), ("oiio:BitsPerSample", .int 16)] (.str "16f") none (-1) =
    .error .keyError ∧
    outputAttributes [("Artist", .text "A"), ("CompressionQuality", .int 90)] (.str "16f") none 50 =
    .ok [("Artist", .text "A"), ("CompressionQuality", .int 50)] := ⟨rfl, rfl⟩

end CLF
