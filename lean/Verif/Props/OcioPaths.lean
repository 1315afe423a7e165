import Verif.Props.EndToEnd

/-!
# C112: where the files of a configuration are
-/

set_option linter.unusedSectionVars false

namespace CLF

variable {K : Type} [Field K] [LinearOrder K] [IsStrictOrderedRing K] [FloorRing K]

/-- A path: from the root or not, and the names on the way. -/
structure Spec.Place where
  absolute : Bool
  names : List Txt

/-- The names of a path are not empty and have no slashes. -/
def Spec.Place.Valid (p : Spec.Place) : Prop := ∀ n ∈ p.names, n ≠ [] ∧ '/' ∉ n

/-- The text of a path. -/
def Spec.Place.text (p : Spec.Place) : Txt :=
  (if p.absolute then ['/'] else []) ++ ['/'].intercalate p.names

/-- The place that a path stands for in a directory. -/
def Spec.Place.inside (dir p : Spec.Place) : Spec.Place :=
  if p.absolute then p else ⟨dir.absolute, dir.names ++ p.names⟩

theorem intercalate_snoc (s : Txt) (l : List Txt) (n : Txt) (hl : l ≠ []) :
    s.intercalate (l ++ [n]) = s.intercalate l ++ s ++ n := by
  induction l with
  | nil => exact absurd rfl hl
  | cons a l ih =>
    cases l with
    | nil => simp [List.intercalate]
    | cons b l =>
      have := ih (by simp)
      simp only [List.intercalate, List.cons_append, List.intersperse_cons_cons, List.flatten_cons,
        List.append_assoc] at this ⊢
      rw [this]

theorem intercalate_join (s : Txt) (l m : List Txt) (hl : l ≠ []) (hm : m ≠ []) :
    s.intercalate (l ++ m) = s.intercalate l ++ s ++ s.intercalate m := by
  induction l with
  | nil => exact absurd rfl hl
  | cons a l ih =>
    cases l with
    | nil =>
      cases m with
      | nil => exact absurd rfl hm
      | cons b m => simp [List.intercalate]
    | cons b l =>
      have := ih (by simp)
      simp only [List.intercalate, List.cons_append, List.intersperse_cons_cons, List.flatten_cons,
        List.append_assoc] at this ⊢
      rw [this]

theorem intercalate_ends (l : List Txt) (hl : l ≠ []) (hv : ∀ n ∈ l, n ≠ [] ∧ '/' ∉ n) :
    ∃ t c, ['/'].intercalate l = t ++ [c] ∧ c ≠ '/' := by
  obtain ⟨l', n, rfl⟩ := List.eq_nil_or_concat l |>.resolve_left hl
  rw [List.concat_eq_append] at hv ⊢
  obtain ⟨hn, hs⟩ := hv n (by simp)
  obtain ⟨n', c, rfl⟩ := List.eq_nil_or_concat n |>.resolve_left hn
  rw [List.concat_eq_append] at hs ⊢
  have hc : c ≠ '/' := by
    rintro rfl
    exact hs (by simp)
  cases l' with
  | nil => exact ⟨n', c, by simp [List.intercalate], hc⟩
  | cons a l' =>
    rw [intercalate_snoc _ _ _ (by simp)]
    exact ⟨_, c, by rw [← List.append_assoc], hc⟩

theorem intercalate_starts (l : List Txt) (hv : ∀ n ∈ l, n ≠ [] ∧ '/' ∉ n) :
    (['/'].intercalate l).head? ≠ some '/' := by
  cases l with
  | nil => simp [List.intercalate]
  | cons n l =>
    obtain ⟨hn, hs⟩ := hv n (by simp)
    cases n with
    | nil => exact absurd rfl hn
    | cons c n =>
      have hc : c ≠ '/' := by
        rintro rfl
        exact hs (by simp)
      cases l <;> simp [List.intercalate, hc]

theorem text_starts (p : Spec.Place) (hv : p.Valid) : p.text.head? = some '/' ↔ p.absolute = true := by
  unfold Spec.Place.text
  cases h : p.absolute with
  | true => simp
  | false =>
    have := intercalate_starts p.names hv
    simpa using this

theorem text_ends (p : Spec.Place) (hv : p.Valid) :
    (p.text = [] ∨ p.text.getLast? = some '/') ↔ p.names = [] := by
  unfold Spec.Place.text
  constructor
  · intro h
    by_contra hn
    obtain ⟨t, c, e, hc⟩ := intercalate_ends p.names hn hv
    rw [e] at h
    rcases h with h | h
    · simp at h
    · rw [← List.append_assoc, List.getLast?_append] at h
      simp [hc] at h
  · intro h
    rw [h]
    cases p.absolute <;> simp [List.intercalate]

/-- The text of a path with a slash at its end, if it has names. -/
theorem join_text (a b : Spec.Place) (ha : a.Valid) (hb : b.Valid) :
    (a.inside b).Valid ∧
      (b.names ≠ [] ∨ b.absolute = true → pathJoin a.text b.text = (a.inside b).text) ∧
      (b.names = [] ∧ b.absolute = false → pathJoin a.text b.text =
        if a.names = [] then a.text else a.text ++ ['/']) := by
  refine ⟨?_, ?_, ?_⟩
  · unfold Spec.Place.inside
    split
    · exact hb
    · intro n hn
      rcases List.mem_append.mp hn with h | h
      · exact ha n h
      · exact hb n h
  · intro h
    unfold pathJoin Spec.Place.inside
    cases hab : b.absolute with
    | true =>
      rw [if_pos ((text_starts b hb).mpr hab)]
      simp
    | false =>
      rw [if_neg (fun h => by simp [(text_starts b hb).mp h] at hab)]
      simp only [Bool.false_eq_true, if_false]
      have hbn : b.names ≠ [] := by
        rcases h with h | h
        · exact h
        · simp [hab] at h
      simp only [text_ends a ha]
      by_cases han : a.names = []
      · rw [if_pos han]
        simp [Spec.Place.text, hab, han, List.intercalate]
      · rw [if_neg han]
        simp only [Spec.Place.text, hab, Bool.false_eq_true, if_false, List.nil_append]
        rw [intercalate_join _ _ _ han hbn]
        simp
  · rintro ⟨hbn, hab⟩
    have ht : b.text = [] := by simp [Spec.Place.text, hbn, hab, List.intercalate]
    rw [ht]
    unfold pathJoin
    simp only [List.head?_nil, reduceCtorEq, if_false, text_ends a ha, List.append_nil]

theorem join_slash (a c : Spec.Place) (ha : a.Valid) (hc : c.Valid) (hn : a.names ≠ []) (hcn : c.names ≠ []) :
    pathJoin (a.text ++ ['/']) c.text = (a.inside c).text := by
  unfold pathJoin
  by_cases h : c.absolute = true
  · rw [if_pos ((text_starts c hc).mpr h)]
    simp [Spec.Place.inside, h]
  · rw [if_neg (fun h' => h ((text_starts c hc).mp h')), if_pos (.inr (by simp))]
    have hf : c.absolute = false := by simpa using h
    simp only [Spec.Place.inside, Spec.Place.text, hf, Bool.false_eq_true, if_false, List.nil_append]
    rw [intercalate_join _ _ _ hn hcn]
    simp

theorem join_join (a b c : Spec.Place) (ha : a.Valid) (hb : b.Valid) (hc : c.Valid) (hcn : c.names ≠ []) :
    pathJoin (pathJoin a.text b.text) c.text = ((a.inside b).inside c).text := by
  obtain ⟨h1, h2, h3⟩ := join_text a b ha hb
  by_cases h : b.names ≠ [] ∨ b.absolute = true
  · rw [h2 h]
    exact (join_text _ c h1 hc).2.1 (.inl hcn)
  · push Not at h
    have hf : b.absolute = false := by simpa using h.2
    rw [h3 ⟨h.1, hf⟩]
    have e : a.inside b = a := by simp [Spec.Place.inside, hf, h.1]
    rw [e]
    split
    · exact (join_text _ c ha hc).2.1 (.inl hcn)
    · exact join_slash a c ha hc (by assumption) hcn

/-- The directory of a file. -/
theorem dirName_text (d : Spec.Place) (n : Txt) (hd : d.Valid) (hn : n ≠ [] ∧ '/' ∉ n) :
    dirName (Spec.Place.text ⟨d.absolute, d.names ++ [n]⟩) = d.text := by
  have drop : ∀ t : Txt, (t ++ '/' :: n).reverse.dropWhile (· ≠ '/') = '/' :: t.reverse := by
    intro t
    rw [List.reverse_append, List.reverse_cons, List.append_assoc]
    rw [List.dropWhile_append_of_pos (by
      intro c hc
      have : c ≠ '/' := by
        rintro rfl
        exact hn.2 (by simpa using hc)
      simpa using this)]
    simp
  by_cases hdn : d.names = []
  · cases hab : d.absolute with
    | true =>
      have e : Spec.Place.text ⟨true, d.names ++ [n]⟩ = [] ++ '/' :: n := by
        simp [Spec.Place.text, hdn, List.intercalate]
      unfold dirName
      rw [e, drop]
      simp [Spec.Place.text, hdn, hab, List.intercalate]
    | false =>
      have e : Spec.Place.text ⟨false, d.names ++ [n]⟩ = n := by
        simp [Spec.Place.text, hdn, List.intercalate]
      unfold dirName
      rw [e, List.dropWhile_eq_nil_iff.mpr (by
        intro c hc
        have : c ≠ '/' := by
          rintro rfl
          exact hn.2 (by simpa using hc)
        simpa using this)]
      simp [Spec.Place.text, hdn, hab, List.intercalate]
  · obtain ⟨t, c, e, hc⟩ := intercalate_ends d.names hdn hd
    have e' : Spec.Place.text ⟨d.absolute, d.names ++ [n]⟩ = d.text ++ '/' :: n := by
      simp only [Spec.Place.text]
      rw [intercalate_snoc _ _ _ hdn]
      simp
    have e2 : d.text = ((if d.absolute then ['/'] else []) ++ t) ++ [c] := by
      rw [Spec.Place.text, e, List.append_assoc]
    unfold dirName
    rw [e', drop, e2]
    simp only [List.reverse_append, List.reverse_cons, List.reverse_nil, List.nil_append, List.singleton_append,
      List.all_cons, List.dropWhile_cons, hc, decide_true, decide_false, Bool.false_and, Bool.and_false,
      Bool.false_eq_true, if_false, if_true, List.reverse_reverse]

theorem registryRead_one (cs : List (LutClass K)) (files : Txt → Py Txt) (path : Txt) (a : ReadArgs)
    (h : ∀ c ∈ cs, c.read files path a = c.read (fun _ => files path) path a) :
    registryRead cs files path a = registryRead cs (fun _ => files path) path a := by
  induction cs with
  | nil => rfl
  | cons c cs ih =>
    simp only [registryRead]
    rw [h c (by simp), ih fun c hc => h c (by simp [hc])]

theorem shipped_one (A : Arith K) (compat : ℕ) (fmt : Flt K → Txt) (files : Txt → Py Txt) (path : Txt)
    (a : ReadArgs) (c : LutClass K) (hc : c ∈ shippedFormats A compat fmt) :
    c.read files path a = c.read (fun _ => files path) path a := by
  simp only [shippedFormats, List.mem_cons, List.not_mem_nil, or_false] at hc
  rcases hc with rfl | rfl | rfl | rfl <;> rfl

/-- C112: a file transform of a configuration is read from one file.  Its path is taken from
the directory that the search path stands for in the directory of the configuration, unless it
begins at the root.  Missing: search paths with more than one directory, which are not
looked through. -/
theorem C112_partial (A : Arith K) (compat : ℕ) (fmt : Flt K → Txt)
    (formats : List (LutClass K)) (hfo : formats.Perm (shippedFormats A compat fmt)) (files : Txt → Py Txt)
    (config : OcioConfig K) (o : OcioOptions) (dir search src : Spec.Place) (name : Txt) (hd : dir.Valid)
    (hs : search.Valid) (hf : src.Valid) (hn : name ≠ [] ∧ '/' ∉ name) (hsrc : src.names ≠ [])
    (hsearch : config.searchPath = search.text) (interpolation : AVal) (forward : Bool) :
    convertTransform (Spec.scriptEnv formats files config
        (Spec.Place.text ⟨dir.absolute, dir.names ++ [name]⟩) o) (.file src.text interpolation forward) =
      convertTransform ⟨formats, fun _ => files ((dir.inside search).inside src).text, none, o.useIndexMaps,
        o.useHalfDomain⟩ (.file ((dir.inside search).inside src).text interpolation forward) := by
  have hp : (Spec.scriptEnv formats files config (Spec.Place.text ⟨dir.absolute, dir.names ++ [name]⟩) o).path
      src.text = ((dir.inside search).inside src).text := by
    unfold OcioEnv.path Spec.scriptEnv
    dsimp only
    rw [dirName_text dir name hd hn, hsearch, join_join dir search src hd hs hf hsrc]
  unfold convertTransform convertFile
  rw [hp]
  simp only [Spec.scriptEnv, OcioEnv.path]
  rw [registryRead_one formats files _ _ fun c hc => shipped_one A compat fmt files _ _ c (hfo.mem_iff.mp hc)]

/-- C112: what is at a path from the root is read wherever the configuration is. -/
theorem C112_absolute (A : Arith K) (compat : ℕ) (fmt : Flt K → Txt)
    (formats : List (LutClass K)) (hfo : formats.Perm (shippedFormats A compat fmt)) (files : Txt → Py Txt)
    (config : OcioConfig K) (o : OcioOptions) (path src : Txt) (interpolation : AVal) (forward : Bool) :
    convertTransform (Spec.scriptEnv formats files config path o) (.file ('/' :: src) interpolation forward) =
      convertTransform ⟨formats, fun _ => files ('/' :: src), none, o.useIndexMaps, o.useHalfDomain⟩
        (.file ('/' :: src) interpolation forward) := by
  have hp : (Spec.scriptEnv formats files config path o).path ('/' :: src) = '/' :: src := by
    simp [OcioEnv.path, Spec.scriptEnv, pathJoin]
  unfold convertTransform convertFile
  rw [hp]
  simp only [Spec.scriptEnv, OcioEnv.path]
  rw [registryRead_one formats files _ _ fun c hc => shipped_one A compat fmt files _ _ c (hfo.mem_iff.mp hc)]

/-- One file, in the directory `c/luts`. -/
def oneFile (path : Txt) : Py Txt :=
  if path = "c/luts/a.spi1d".toList then .ok "Version 1\nFrom 0 2\nLength 2\nComponents 1\n{\n0\n1\n}\n".toList
  else .error .ioError

/-- The number of nodes that the transform of `a.spi1d` becomes, by the search path. -/
def nodesBySearch (search : String) : Option ℕ :=
  match convertTransform (K := ℚ) (Spec.scriptEnv (shippedFormats ratArith 0 fun x => str12 (.ofFlt x)) oneFile
      ⟨search.toList, fun _ => none⟩ "c/o.ocio".toList {}) (.file "a.spi1d".toList (.str "linear") true) with
  | .ok ns => some ns.length
  | .error _ => none

/-- Paths that meet the hypotheses of `C112_partial`, and lead to a file. -/
example : (⟨false, ["c".toList]⟩ : Spec.Place).Valid ∧ (⟨false, ["luts".toList]⟩ : Spec.Place).Valid ∧
    (⟨false, ["a.spi1d".toList]⟩ : Spec.Place).Valid ∧
    Spec.Place.text ⟨false, ["c".toList, "o.ocio".toList]⟩ = "c/o.ocio".toList ∧
    (((⟨false, ["c".toList]⟩ : Spec.Place).inside ⟨false, ["luts".toList]⟩).inside
      ⟨false, ["a.spi1d".toList]⟩).text = "c/luts/a.spi1d".toList ∧ nodesBySearch "luts" = some 2 := by
  refine ⟨?_, ?_, ?_, by decide, by decide, by decide +kernel⟩ <;> simp [Spec.Place.Valid]

/-- C112 is false: the directories of a search path with two of them, divided by a colon as
OpenColorIO divides them, are not looked through.  The file is in the first of them, and reading
it fails. -/
theorem C112_false : ∃ (files : Txt → Py Txt) (dir first second src : Spec.Place) (name : Txt)
    (ns : List (Node ℚ)), dir.Valid ∧ first.Valid ∧ second.Valid ∧ src.Valid ∧ name ≠ [] ∧ '/' ∉ name ∧
    src.names ≠ [] ∧
    convertTransform ⟨shippedFormats ratArith 0 fun x => str12 (.ofFlt x),
        fun _ => files ((dir.inside first).inside src).text, none, false, false⟩
      (.file ((dir.inside first).inside src).text (.str "linear") true) = .ok ns ∧
    convertTransform (Spec.scriptEnv (shippedFormats ratArith 0 fun x => str12 (.ofFlt x)) files
        ⟨first.text ++ ':' :: second.text, fun _ => none⟩
        (Spec.Place.text ⟨dir.absolute, dir.names ++ [name]⟩) {}) (.file src.text (.str "linear") true) =
      .error .ioError := by
  have hok : ∃ ns, convertTransform (K := ℚ) ⟨shippedFormats ratArith 0 fun x => str12 (.ofFlt x),
        fun _ => oneFile "c/luts/a.spi1d".toList, none, false, false⟩
      (.file "c/luts/a.spi1d".toList (.str "linear") true) = .ok ns := by
    have h : (match convertTransform (K := ℚ) ⟨shippedFormats ratArith 0 fun x => str12 (.ofFlt x),
        fun _ => oneFile "c/luts/a.spi1d".toList, none, false, false⟩
      (.file "c/luts/a.spi1d".toList (.str "linear") true) with
      | .ok _ => true
      | .error _ => false) = true := by decide +kernel
    split at h
    · exact ⟨_, by assumption⟩
    · cases h
  obtain ⟨ns, hns⟩ := hok
  refine ⟨oneFile, ⟨false, ["c".toList]⟩, ⟨false, ["luts".toList]⟩, ⟨false, ["more".toList]⟩,
    ⟨false, ["a.spi1d".toList]⟩, "o.ocio".toList, ns, ?_, ?_, ?_, ?_, by decide, by decide, by decide, hns, ?_⟩
  · simp [Spec.Place.Valid]
  · simp [Spec.Place.Valid]
  · simp [Spec.Place.Valid]
  · simp [Spec.Place.Valid]
  · have h : (match convertTransform (K := ℚ) (Spec.scriptEnv (shippedFormats ratArith 0 fun x => str12 (.ofFlt x))
        oneFile ⟨Spec.Place.text ⟨false, ["luts".toList]⟩ ++ ':' :: Spec.Place.text ⟨false, ["more".toList]⟩,
          fun _ => none⟩ (Spec.Place.text ⟨false, ["c".toList] ++ ["o.ocio".toList]⟩) {})
        (.file (Spec.Place.text ⟨false, ["a.spi1d".toList]⟩) (.str "linear") true) with
      | .error .ioError => true
      | _ => false) = true := by decide +kernel
    split at h
    · assumption
    · cases h

end CLF
