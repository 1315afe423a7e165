import Verif.Model.Registry
import Verif.Lemmas.Spi
import Verif.Lemmas.Loops
import Verif.Props.Ctl
import Verif.Props.Nodes
import Verif.Props.NodeCalls

/-!
# C107, C108: line ends and versions of LUT files
-/

set_option linter.unusedSectionVars false

namespace CLF

variable {K : Type} [Field K] [LinearOrder K] [IsStrictOrderedRing K] [FloorRing K]

/-! ## C107 -/

/-- The text with other line ends. -/
def Spec.withEnds (e : Txt) (t : Txt) : Txt := t.flatMap fun c => if c = '\n' then e else [c]

/-- The line ends of Unix, Windows and old Macintosh files. -/
def Spec.LineEnd (e : Txt) : Prop := e = ['\n'] ∨ e = ['\r', '\n'] ∨ e = ['\r']

theorem splitLines_plain (c : Char) (r : Txt) (h1 : c ≠ '\n') (h2 : c ≠ '\r') :
    splitLines (c :: r) = match splitLines r with | [] => [[c]] | w :: ws => (c :: w) :: ws := by
  rw [splitLines]
  · rw [if_neg (by simp [h1, h2])]
    cases splitLines r <;> rfl
  · intro r' h
    exact absurd h h2

theorem splitLines_nl (r : Txt) : splitLines ('\n' :: r) = [] :: splitLines r := by
  rw [splitLines]
  · simp
  · intro r' h
    exact absurd h (by decide)

theorem splitLines_crlf (r : Txt) : splitLines ('\r' :: '\n' :: r) = [] :: splitLines r := by
  rw [splitLines]

theorem splitLines_cr (r : Txt) (h : r.head? ≠ some '\n') :
    splitLines ('\r' :: r) = [] :: splitLines r := by
  rw [splitLines]
  · simp
  · rintro r' - h'
    rw [h'] at h
    simp at h

theorem splitLines_ends (e : Txt) (he : Spec.LineEnd e) (t : Txt) (ht : '\r' ∉ t) :
    splitLines (Spec.withEnds e t) = splitLines t := by
  induction t with
  | nil => rfl
  | cons c t ih =>
    rw [List.mem_cons, not_or] at ht
    have ih := ih ht.2
    have hc : Spec.withEnds e (c :: t) = (if c = '\n' then e else [c]) ++ Spec.withEnds e t := rfl
    rw [hc]
    by_cases h : c = '\n'
    · subst h
      rw [if_pos rfl, splitLines_nl]
      rcases he with rfl | rfl | rfl
      · exact (splitLines_nl _).trans (congrArg _ ih)
      · exact (splitLines_crlf _).trans (congrArg _ ih)
      · refine (splitLines_cr _ ?_).trans (congrArg _ ih)
        cases t with
        | nil => simp [Spec.withEnds]
        | cons d t =>
          have : Spec.withEnds ['\r'] (d :: t) =
            (if d = '\n' then ['\r'] else [d]) ++ Spec.withEnds ['\r'] t := rfl
          rw [this]
          split
          · simp
          · rename_i hd
            simpa using hd
    · rw [if_neg h]
      show splitLines (c :: Spec.withEnds e t) = _
      rw [splitLines_plain c _ h (fun h => ht.1 h.symm), splitLines_plain c _ h (fun h => ht.1 h.symm), ih]

/-- C107: a LUT file read through the registry gives the same nodes, or the same error,
whatever the line ends of the files are. -/
theorem C107_line_ends (A : Arith K) (compat : ℕ) (fmt : Flt K → Txt) (cs : List (LutClass K))
    (hcs : cs.Perm (shippedFormats A compat fmt)) (e : Txt) (he : Spec.LineEnd e)
    (files : Txt → Py Txt) (hf : ∀ p t, files p = .ok t → '\r' ∉ t) (path : Txt) (a : ReadArgs) :
    registryRead cs (fun p => (files p).map (Spec.withEnds e)) path a =
      registryRead cs files path a := by
  have key : ∀ c ∈ cs, c.read (fun p => (files p).map (Spec.withEnds e)) path a =
      c.read files path a := by
    intro c hc
    have hc := hcs.subset hc
    simp only [shippedFormats, List.mem_cons, List.not_mem_nil, or_false] at hc
    rcases hc with rfl | rfl | rfl | rfl
    · unfold spiClass
      dsimp only
      cases h : files path with
      | error x => rfl
      | ok t =>
        have := splitLines_ends e he t (hf path t h)
        have h1 : readSpi1d (K := K) (Spec.withEnds e t) a.inverse a.interpolation a.useIndexMaps a.useHalfDomain =
            readSpi1d t a.inverse a.interpolation a.useIndexMaps a.useHalfDomain := by
          unfold readSpi1d spi1dParse
          rw [this]
        have h3 : readSpi3d (K := K) (Spec.withEnds e t) a.inverse a.interpolation =
            readSpi3d t a.inverse a.interpolation := by
          unfold readSpi3d spi3dParse
          rw [this]
        simp only [Except.map, py_ok_bind, h1, h3]
    · unfold cspClass
      dsimp only
      cases h : files path with
      | error x => rfl
      | ok t =>
        have := splitLines_ends e he t (hf path t h)
        have h1 : readCsp (K := K) (Spec.withEnds e t) a.inverse a.interpolation =
            readCsp t a.inverse a.interpolation := by
          unfold readCsp cspParse
          rw [this]
        simp only [Except.map, py_ok_bind, h1]
    · rfl
    · rfl
  clear hcs
  induction cs with
  | nil => rfl
  | cons c cs ih =>
    have ih := ih fun d hd => key d (List.mem_cons_of_mem _ hd)
    unfold registryRead
    rw [key c (List.mem_cons_self ..), ih]

/-- The nodes a text is read as, counted. -/
def nodesIn (t : Txt) (name : String) : Option ℕ :=
  match registryRead (shippedFormats ratArith 0 pyStr) (fun _ => .ok t) name.toList {} with
  | .ok (some ns) => some ns.length
  | _ => none

/-- A Windows file. -/
example : nodesIn "Version 1\r\nFrom 0 2\r\nLength 2\r\nComponents 1\r\n{\r\n0\r\n1\r\n}\r\n".toList
    "a.spi1d" = some 2 := by decide +kernel

/-! ## C108 -/

/-- The line gives a version other than 1. -/
def Spec.WrongVersion (line : Txt) : Prop :=
  ∃ v n rest, words line = "Version".toList :: v :: rest ∧ parseNat v = .ok n ∧ n ≠ 1

/-- The line gives the number of components. -/
def Spec.ComponentsLine (line : Txt) : Prop := (words line).head? = some "Components".toList

theorem wrong_stops (s : Spi1d K) (line : Txt) (h : Spec.WrongVersion line) (post : List Txt) :
    spi1dLoop s (line :: post) = .ok s := by
  obtain ⟨v, n, rest, h1, h2, h3⟩ := h
  rw [spi1dLoop, h1]
  show (do
    let v ← pyGet ("Version".toList :: v :: rest) 1
    let v ← parseNat v
    if v ≠ 1 then Except.ok s else spi1dLoop s post) = _
  have : pyGet ("Version".toList :: v :: rest) 1 = .ok v := rfl
  rw [this, py_ok_bind, h2, py_ok_bind, if_pos h3]

/-- What comes after a line with a wrong version does not matter. -/
theorem wrong_prefix (line : Txt) (h : Spec.WrongVersion line) (post : List Txt) (pre : List Txt)
    (s : Spi1d K) : spi1dLoop s (pre ++ line :: post) = spi1dLoop s (pre ++ [line]) := by
  induction pre generalizing s with
  | nil => rw [List.nil_append, List.nil_append, wrong_stops s line h, wrong_stops s line h]
  | cons l pre ih =>
    rw [List.cons_append, List.cons_append, spi1dLoop, spi1dLoop]
    simp only [ih]

/-- Lines that do not give the number of components leave it as it was. -/
theorem components_kept (pre : List Txt) (hp : ∀ l ∈ pre, ¬ Spec.ComponentsLine l) (s s' : Spi1d K)
    (h : spi1dLoop s pre = .ok s') : s'.components = s.components := by
  induction pre generalizing s with
  | nil =>
    injection h with h
    rw [h]
  | cons l pre ih =>
    have ih := fun s h => ih (fun m hm => hp m (List.mem_cons_of_mem _ hm)) s h
    have hl := hp l (List.mem_cons_self ..)
    rw [spi1dLoop] at h
    obtain ⟨t, ht, h⟩ := py_bind_eq_ok.mp h
    have hne : t ≠ "Components".toList := by
      rintro rfl
      apply hl
      unfold Spec.ComponentsLine
      generalize words l = ws at ht
      cases ws with
      | nil => cases ht
      | cons w ws =>
        injection ht with ht
        rw [ht]
        rfl
    split at h
    · obtain ⟨v, -, h⟩ := py_bind_eq_ok.mp h
      obtain ⟨n, -, h⟩ := py_bind_eq_ok.mp h
      split at h
      · injection h with h
        rw [h]
      · exact ih s h
    · split at h
      · obtain ⟨_, -, h⟩ := py_bind_eq_ok.mp h
        obtain ⟨_, -, h⟩ := py_bind_eq_ok.mp h
        obtain ⟨_, -, h⟩ := py_bind_eq_ok.mp h
        obtain ⟨_, -, h⟩ := py_bind_eq_ok.mp h
        have := ih _ h
        exact this
      · split at h
        · obtain ⟨_, -, h⟩ := py_bind_eq_ok.mp h
          obtain ⟨_, -, h⟩ := py_bind_eq_ok.mp h
          have := ih _ h
          exact this
        · split at h
          · exact ih _ h
          · obtain ⟨_, -, h⟩ := py_bind_eq_ok.mp h
            have := ih _ h
            exact this

theorem bind_fails {α β : Type} (x : Py α) (f : α → Py β) (h : ∀ a, x = .ok a → ∃ e, f a = .error e) :
    ∃ e, (x >>= f) = .error e := by
  cases x with
  | error e => exact ⟨e, rfl⟩
  | ok a => exact h a rfl

theorem setArray_zero (b : Base K) (vs : List (Flt K)) : ∃ e, lut1dSetArray b 0 vs = .error e :=
  ⟨.zeroDivision, rfl⟩

/-- Without components a table cannot be used in any of the four ways of reading. -/
theorem no_components (s : Spi1d K) (hs : s.components = 0) (inverse : Bool) (interpolation : AVal)
    (useIndexMaps useHalfDomain : Bool) : ∃ e,
    (if !inverse then spi1dForward interpolation s.components s.samples s.lo s.hi
      else if useIndexMaps then inverseIndexMap s.length s.components s.samples s.lo s.hi
      else if useHalfDomain then inverseHalfDomain s.length s.components s.samples s.lo s.hi true
      else inverseResampled s.length s.components s.samples s.lo s.hi) = .error e := by
  rw [hs]
  split
  · exact ⟨.zeroDivision, rfl⟩
  · split
    · refine bind_fails _ _ fun maps hm => bind_fails _ _ fun rows _ => ?_
      injection hm with hm
      subst hm
      exact ⟨.indexError, rfl⟩
    · split
      · refine bind_fails _ _ fun rows _ => ?_
        exact ⟨.zeroDivision, rfl⟩
      · refine bind_fails _ _ fun m0 _ => bind_fails _ _ fun _ _ => bind_fails _ _ fun _ _ =>
          bind_fails _ _ fun _ _ => bind_fails _ _ fun rows _ => ?_
        exact ⟨.zeroDivision, rfl⟩

/-- C108, SPI 1D: a file with a wrong version before the number of its components cannot be
read.  What is missing: a wrong version further down. -/
theorem C108_spi1d_partial (content line : Txt) (pre post : List Txt)
    (h : splitLines content = pre ++ line :: post) (hv : Spec.WrongVersion line)
    (hp : ∀ l ∈ pre, ¬ Spec.ComponentsLine l) (inverse : Bool) (interpolation : AVal)
    (useIndexMaps useHalfDomain : Bool) :
    ∃ e, readSpi1d (K := K) content inverse interpolation useIndexMaps useHalfDomain = .error e := by
  refine bind_fails _ _ fun s hs => no_components s ?_ _ _ _ _
  unfold spi1dParse at hs
  rw [h, wrong_prefix line hv post pre] at hs
  refine components_kept (pre ++ [line]) ?_ _ _ hs
  intro l hl
  rcases List.mem_append.mp hl with hl | hl
  · exact hp l hl
  · rw [List.mem_singleton] at hl
    subst hl
    obtain ⟨v, n, rest, h1, -, -⟩ := hv
    unfold Spec.ComponentsLine
    rw [h1]
    show ¬ some "Version".toList = some "Components".toList
    decide

/-- C108, SPI 1D: a wrong version further down ends the file. -/
theorem C108_spi1d_ends (line : Txt) (pre post : List Txt) (hv : Spec.WrongVersion line) (c c' : Txt)
    (h : splitLines c = pre ++ line :: post) (h' : splitLines c' = pre) (inverse : Bool)
    (interpolation : AVal) (useIndexMaps useHalfDomain : Bool) :
    readSpi1d (K := K) c inverse interpolation useIndexMaps useHalfDomain =
      readSpi1d c' inverse interpolation useIndexMaps useHalfDomain := by
  have key : ∀ (pre : List Txt) (s : Spi1d K), spi1dLoop s (pre ++ [line]) = spi1dLoop s pre := by
    intro pre
    induction pre with
    | nil => intro s; rw [List.nil_append, wrong_stops s line hv, spi1dLoop]
    | cons l pre ih =>
      intro s
      rw [List.cons_append, spi1dLoop, spi1dLoop]
      simp only [ih]
  unfold readSpi1d spi1dParse
  rw [h, h', wrong_prefix line hv post pre, key pre]

/-- C108 is false for SPI 1D. -/
theorem C108_spi1d_false : ∃ (content : Txt) (b : Base ℚ) (a : Arr ℚ),
    (∃ l ∈ splitLines content, Spec.WrongVersion l) ∧ readSpi1d content = .ok [.leaf .lut1d b] ∧
      b.array = .ok a ∧ a.dims = [2, 1] :=
  ⟨"Components 1\n0\n1\nVersion 2\n5\n".toList, _, _,
    ⟨"Version 2".toList, by decide, "2".toList, 2, [], by decide, by decide, by decide⟩, rfl, rfl, rfl⟩

/-- C108 is false for SPI 3D: every file whose first line is not that of version 1 is read as an
empty cube. -/
theorem C108_spi3d_false (content line : Txt) (rest : List Txt) (h : splitLines content = line :: rest)
    (w v : Txt) (ws : List Txt) (x : Flt K) (hw : words line = w :: v :: ws) (hx : readFlt v = .ok x)
    (hv : w ≠ "SPILUT".toList ∨ x ≠ .fin 1) (inverse : Bool) (interpolation : AVal) :
    ∃ (b : Base K) (a : Arr K), readSpi3d (K := K) content inverse interpolation = .ok [.leaf .lut3d b] ∧
      b.array = .ok a ∧ a.dims = [0, 0, 0, 3] ∧ a.values = [] := by
  have hp : spi3dParse (K := K) content = .ok ([0, 0, 0], []) := by
    unfold spi3dParse
    rw [h]
    simp only [show pyGet (line :: rest) 0 = .ok line from rfl, show pyGet (w :: v :: ws) 0 = .ok w from rfl, py_ok_bind, hw]
    by_cases hs : w = "SPILUT".toList
    · rw [if_pos hs]
      have : pyGet (w :: v :: ws) 1 = .ok v := rfl
      rw [this, py_ok_bind, hx, py_ok_bind, if_neg (by tauto)]
      rfl
    · rw [if_neg hs]
      rfl
  unfold readSpi3d
  rw [hp, py_ok_bind]
  exact ⟨_, _, rfl, array_added _ _, rfl, rfl⟩

/-- C108, CSP: a file that does not begin with the word of version 1.0 cannot be read. -/
theorem C108_csp (content line w : Txt) (ws rest : List Txt) (h : splitLines content = line :: rest)
    (hw : words line = w :: ws) (hv : w ≠ "CSPLUTV100".toList) (inverse : Bool) (interpolation : AVal) :
    readCsp (K := K) content inverse interpolation = .error .unboundLocal := by
  unfold readCsp cspParse
  rw [h]
  have h0 : pyGet (line :: rest) 0 = .ok line := rfl
  have h1 : pyGet (words line) 0 = .ok w := by rw [hw]; rfl
  simp only [h0, h1, py_ok_bind, if_neg hv]
  rfl

/-- Files of other versions: an error for the first, an empty cube for the second. -/
example : nodesIn "Version 2\nLength 2\nComponents 1\n{\n0\n1\n}\n".toList "a.spi1d" = none ∧
    nodesIn "SPILUT 2.0\n3 3\n2 2 2\n".toList "a.spi3d" = some 1 ∧
    nodesIn "CSPLUTV200\n3D\n".toList "a.csp" = none := by decide +kernel

end CLF
