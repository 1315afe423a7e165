import Verif.Model.Print
import Verif.Lemmas.IndexMapText
import Verif.Lemmas.ArrayText
import Verif.Lemmas.Gamma
import Verif.Lemmas.Matrix
import Verif.Spec.Tree
import Verif.Lemmas.Nodes
import Verif.Lemmas.RoundTrip
import Verif.Props.ArrayText
import Verif.Props.Nodes

/-!
# C102, C103, C104: what `printInfo` prints

C102: the parameters that processing uses are shown.  C103: the rows of a table are shown.
C104: printing never fails.
-/

set_option linter.unusedSectionVars false

namespace CLF

variable {K : Type} [Field K] [LinearOrder K] [IsStrictOrderedRing K] [FloorRing K]

/-! ## C103: tables -/

/-- The text `w` shows the entry `x`: read as a number it is within half of the ninth decimal,
or, in integer tables, without the fraction. -/
def Spec.CellShows (integers : Bool) (x : Flt K) (w : Txt) : Prop :=
  ∃ v : SFlt K, parseFloat w = .ok v ∧
    match x with
    | .nan => v.toFlt = .nan
    | .inf s => v.toFlt = .inf s
    | .fin r => ∃ r', v.toFlt = .fin r' ∧
        if integers then r' = if r < 0 then (⌈r⌉ : K) else (⌊r⌋ : K) else |r' - r| ≤ 1 / 2 / 10 ^ 9

/-- The line shows row `n` of a table with `c` entries per row, and nothing else. -/
def Spec.RowShows (integers : Bool) (values : List (Flt K)) (c n : ℕ) (line : Line K) : Prop :=
  ∃ t, line = .row t ∧ (words t).length = c ∧
    ∀ j < c, ∃ x w, values[n * c + j]? = some x ∧ (words t)[j]? = some w ∧ Spec.CellShows integers x w

/-- The cell without its padding. -/
def cellCore (integers : Bool) (x : Flt K) : Txt :=
  if integers then showInt (truncVal x) else core9 (SFlt.ofFlt x)

theorem printCell_eq (integers : Bool) (x : Flt K) (h : integers = true → ∃ r, x = .fin r) :
    printCell integers x = .ok (padLeft 15 (cellCore integers x)) := by
  unfold printCell cellCore
  cases integers with
  | true =>
    obtain ⟨r, rfl⟩ := h rfl
    rfl
  | false =>
    simp only [Bool.false_eq_true, if_false]
    rw [show9_eq, padLeft_padLeft 6 _ (by decide)]

theorem cellCore_word (integers : Bool) (x : Flt K) :
    NoSpace (cellCore integers x) ∧ cellCore integers x ≠ [] := by
  unfold cellCore
  cases integers with
  | true =>
    refine ⟨(showInt_word _).1, ?_⟩
    simp only [if_true]
    rw [showInt_eq]
    simp [showNat_ne]
  | false => exact ⟨core9_noSpace _, core9_ne _⟩

theorem cellCore_shows (integers : Bool) (x : Flt K) (h : integers = true → ∃ r, x = .fin r) :
    Spec.CellShows integers x (cellCore integers x) := by
  unfold Spec.CellShows cellCore
  cases integers with
  | true =>
    obtain ⟨r, rfl⟩ := h rfl
    simp only [if_true]
    refine ⟨_, parseFloat_showInt _, _, rfl, ?_⟩
    have hv : truncVal (.fin r : Flt K) = if r < 0 then ⌈r⌉ else ⌊r⌋ := by
      unfold truncVal
      simp only [Int.floor_neg, neg_neg]
    rw [hv]
    generalize hn : (if r < 0 then ⌈r⌉ else ⌊r⌋) = n
    have e : (if r < 0 then (⌈r⌉ : K) else (⌊r⌋ : K)) = (n : K) := by
      rw [← hn]; split <;> rfl
    rw [e]
    by_cases h0 : n < 0
    · simp only [h0, decide_true, if_true]
      have : (n.natAbs : ℤ) = -n := by omega
      have h3 : ((n.natAbs : ℤ) : K) = ((-n : ℤ) : K) := by rw [this]
      rw [Int.cast_natCast, Int.cast_neg] at h3
      rw [h3, neg_neg]
    · simp only [h0, decide_false, Bool.false_eq_true, if_false]
      have : (n.natAbs : ℤ) = n := by omega
      have h3 : ((n.natAbs : ℤ) : K) = ((n : ℤ) : K) := by rw [this]
      rw [Int.cast_natCast] at h3
      exact h3
  | false =>
    refine ⟨_, parseFloat_core9 _, ?_⟩
    cases x with
    | nan => rfl
    | inf s => rfl
    | fin r =>
      obtain ⟨m', h1, -, h2⟩ := dec9_near (decide (r < 0)) |r| (abs_nonneg r)
      refine ⟨if decide (r < 0) = true then -m' else m', ?_, ?_⟩
      · show (dec9 (.fin (decide (r < 0)) |r|)).toFlt = _
        rw [h1]
        rfl
      · simp only [Bool.false_eq_true, if_false, decide_eq_true_eq]
        split
        · rename_i hr
          rw [abs_of_neg hr] at h2
          rw [show -m' - r = -(m' - -r) by ring, abs_neg]
          exact h2
        · rename_i hr
          rw [abs_of_nonneg (not_lt.mp hr)] at h2
          exact h2

theorem pySlice_getElem? {α : Type} (l : List α) (c n j : ℕ) (hj : j < c) :
    (pySlice l (n * c) ((n + 1) * c))[j]? = l[n * c + j]? := by
  have : (n + 1) * c - n * c = c := by rw [Nat.add_mul]; omega
  rw [pySlice, this, List.getElem?_take_of_lt hj, List.getElem?_drop]

theorem pySlice_row_length {α : Type} (l : List α) (c n : ℕ) (h : (n + 1) * c ≤ l.length) :
    (pySlice l (n * c) ((n + 1) * c)).length = c := by
  have e : (n + 1) * c - n * c = c := by rw [Nat.add_mul]; omega
  rw [pySlice, e, List.length_take, List.length_drop]
  have : (n + 1) * c = n * c + c := by ring
  omega

theorem printRow_shows (a : Arr K) (c n : ℕ) (h : (n + 1) * c ≤ a.values.length)
    (hf : a.integers = true → ∀ j < c, ∃ r, a.values[n * c + j]? = some (.fin r)) :
    ∃ line, printRow a c n = .ok line ∧ Spec.RowShows a.integers a.values c n line := by
  have hlen := pySlice_row_length a.values c n h
  have hc : ∀ x ∈ pySlice a.values (n * c) ((n + 1) * c), a.integers = true → ∃ r, x = .fin r := by
    intro x hx hi
    obtain ⟨j, hj, rfl⟩ := List.mem_iff_getElem.mp hx
    have hj' : j < c := by omega
    obtain ⟨r, hr⟩ := hf hi j hj'
    rw [← pySlice_getElem? a.values c n j hj', List.getElem?_eq_getElem hj] at hr
    exact ⟨r, Option.some.inj hr⟩
  have hw : words (List.replicate 30 ' ' ++ joinWith [' ']
      (((pySlice a.values (n * c) ((n + 1) * c)).map (cellCore a.integers)).map (padLeft 15)))
      = (pySlice a.values (n * c) ((n + 1) * c)).map (cellCore a.integers) := by
    rw [words_pad]
    have := words_join 15 ((pySlice a.values (n * c) ((n + 1) * c)).map (cellCore a.integers))
      (by intro w hw; obtain ⟨x, -, rfl⟩ := List.mem_map.mp hw; exact cellCore_word _ _) ' ' (by decide) []
    rwa [words_snoc _ _ (by decide), words_nil, List.append_nil] at this
  refine ⟨.row (List.replicate 30 ' ' ++ joinWith [' ']
      (((pySlice a.values (n * c) ((n + 1) * c)).map (cellCore a.integers)).map (padLeft 15))), ?_, _, rfl, ?_, ?_⟩
  · unfold printRow
    rw [py_mapM_ok _ (fun x => padLeft 15 (cellCore a.integers x)) _ (fun x hx => printCell_eq _ x (hc x hx))]
    show Except.ok _ = _
    rw [← Function.comp_def (padLeft 15) (cellCore a.integers), ← List.map_map]
  · rw [hw, List.length_map, hlen]
  · intro j hj
    have hj' : j < (pySlice a.values (n * c) ((n + 1) * c)).length := by omega
    refine ⟨(pySlice a.values (n * c) ((n + 1) * c))[j], cellCore a.integers (pySlice a.values (n * c) ((n + 1) * c))[j],
      ?_, ?_, ?_⟩
    · rw [← pySlice_getElem? a.values c n j hj, List.getElem?_eq_getElem hj']
    · rw [hw, List.getElem?_map, List.getElem?_eq_getElem hj']; rfl
    · exact cellCore_shows _ _ (hc _ (List.getElem_mem hj'))

/-- The number of entries in a row: the last dimension of a 1D or 3D table, and the second of a
matrix. -/
inductive Spec.Columns : List ℕ → ℕ → Prop
  | lut1d (n c : ℕ) : Spec.Columns [n, c] c
  | lut3d (x y z c : ℕ) : Spec.Columns [x, y, z, c] c
  | matrix (r c k : ℕ) : Spec.Columns [r, c, k] c

theorem printColumns_eq {dims : List ℕ} {c : ℕ} (h : Spec.Columns dims c) : printColumns dims = .ok c := by
  cases h <;> rfl

theorem range_rows {P : ℕ → Line K → Prop} {f : ℕ → Py (Line K)} (n : ℕ)
    (h : ∀ i < n, ∃ line, f i = .ok line ∧ P i line) :
    ∃ ls, (List.range n).mapM f = .ok ls ∧ ls.length = n ∧ ∀ i < n, ∃ line, ls[i]? = some line ∧ P i line := by
  obtain ⟨ls, hls⟩ := py_mapM_exists f (List.range n) fun i hi => by
    obtain ⟨l, hl, -⟩ := h i (List.mem_range.mp hi)
    exact ⟨l, hl⟩
  have hl := py_mapM_length hls
  rw [List.length_range] at hl
  refine ⟨ls, hls, hl, fun i hi => ?_⟩
  obtain ⟨line, h1, h2⟩ := h i hi
  have := List.forall₂_iff_get.mp (py_mapM_eq_ok.mp hls)
  have h3 := this.2 i (by simpa using hi) (by omega)
  simp only [List.get_eq_getElem, List.getElem_range] at h3
  rw [h1] at h3
  refine ⟨line, ?_, h2⟩
  rw [List.getElem?_eq_getElem (by omega)]
  exact congrArg some (Except.ok.inj h3).symm

/-- C103: a table of at most ten rows is shown row by row. -/
theorem C103_small (a : Arr K) (c rows : ℕ) (hd : Spec.Columns a.dims c) (hc : 0 < c)
    (hl : a.values.length = rows * c) (hr : rows ≤ 10)
    (hf : a.integers = true → ∀ x ∈ a.values, ∃ r, x = .fin r) :
    ∃ head body, a.printInfo = .ok (head ++ body) ∧ head.length = 3 ∧ body.length = rows ∧
      ∀ n < rows, ∃ line, body[n]? = some line ∧ Spec.RowShows a.integers a.values c n line := by
  have hrow : a.values.length / c = rows := by rw [hl, Nat.mul_div_cancel _ hc]
  obtain ⟨ls, h1, h2, h3⟩ := range_rows (P := Spec.RowShows a.integers a.values c)
    (f := printRow a c) rows (fun n hn => printRow_shows a c n
      (by rw [hl]; exact Nat.mul_le_mul_right c hn) (fun hi j hj => by
        have : n * c + j < a.values.length := by
          rw [hl]
          calc n * c + j < n * c + c := by omega
            _ = (n + 1) * c := by ring
            _ ≤ rows * c := Nat.mul_le_mul_right c hn
        obtain ⟨r, hr⟩ := hf hi _ (List.getElem_mem this)
        exact ⟨r, by rw [List.getElem?_eq_getElem this, hr]⟩))
  refine ⟨[.title "Array", .entry "Dimensions" "" (.nums (a.dims.map fun d => .fin d)), .title "Values"], ls,
    ?_, rfl, h2, h3⟩
  unfold Arr.printInfo
  rw [printColumns_eq hd, py_ok_bind, if_neg (by omega), hrow]
  simp only []
  rw [if_neg (by omega), h1]
  rfl

/-- C103: of a larger table the first three and the last three rows are shown, with dots
between. -/
theorem C103_large (a : Arr K) (c rows : ℕ) (hd : Spec.Columns a.dims c) (hc : 0 < c)
    (hl : a.values.length = rows * c) (hr : 10 < rows)
    (hf : a.integers = true → ∀ x ∈ a.values, ∃ r, x = .fin r) :
    ∃ head first dots last, a.printInfo = .ok (head ++ first ++ [.row dots] ++ last) ∧ head.length = 3 ∧
      first.length = 3 ∧ last.length = 3 ∧ words dots = ["...".toList] ∧
      (∀ n < 3, ∃ line, first[n]? = some line ∧ Spec.RowShows a.integers a.values c n line) ∧
      ∀ n < 3, ∃ line, last[n]? = some line ∧
        Spec.RowShows a.integers a.values c (rows - 3 + n) line := by
  have hrow : a.values.length / c = rows := by rw [hl, Nat.mul_div_cancel _ hc]
  have key : ∀ n < rows, ∃ line, printRow a c n = .ok line ∧ Spec.RowShows a.integers a.values c n line :=
    fun n hn => printRow_shows a c n
      (by rw [hl]; exact Nat.mul_le_mul_right c hn) (fun hi j hj => by
        have : n * c + j < a.values.length := by
          rw [hl]
          calc n * c + j < n * c + c := by omega
            _ = (n + 1) * c := by ring
            _ ≤ rows * c := Nat.mul_le_mul_right c hn
        obtain ⟨r, hr⟩ := hf hi _ (List.getElem_mem this)
        exact ⟨r, by rw [List.getElem?_eq_getElem this, hr]⟩)
  obtain ⟨l1, h1, h2, h3⟩ := range_rows (P := Spec.RowShows a.integers a.values c)
    (f := printRow a c) 3 (fun n hn => key n (by omega))
  obtain ⟨l2, h4, h5, h6⟩ := range_rows (P := fun n => Spec.RowShows a.integers a.values c (rows - 3 + n))
    (f := fun i => printRow a c (rows - 3 + i)) 3 (fun n hn => key _ (by omega))
  refine ⟨[.title "Array", .entry "Dimensions" "" (.nums (a.dims.map fun d => .fin d)), .title "Values"], l1,
    List.replicate (30 + c / 2 * 16) ' ' ++ "    ...    ".toList, l2, ?_, rfl, h2, h5, ?_, h3, h6⟩
  · unfold Arr.printInfo
    rw [printColumns_eq hd, py_ok_bind, if_neg (by omega), hrow]
    simp only []
    rw [if_pos hr, h1, py_ok_bind, h4]
    rfl
  · rw [words_pad]
    decide

/-- The line shows one pair of an index map: input, comma, output, to nine decimals. -/
def Spec.PairShows (m : IndexMap K) (n : ℕ) (line : Line K) : Prop :=
  ∃ t a b x y, line = .row t ∧ words t = [a ++ [','], b] ∧ m.inputs[n]? = some x ∧ m.outputs[n]? = some y ∧
    Spec.CellShows false x a ∧ Spec.CellShows false y b

/-- The word shows one pair of an index map: input, comma, output, to twelve digits. -/
def Spec.PairWord (x y : Flt K) (w : Txt) : Prop :=
  ∃ a b u v, w = a ++ ',' :: b ∧ parseFloat (K := K) a = .ok u ∧ parseFloat (K := K) b = .ok v ∧
    Spec.Printed x u.toFlt ∧ Spec.Printed y v.toFlt

theorem zipFill_zip {α β : Type} : ∀ (l : List α) (m : List β), l.length = m.length →
    zipFill l m = (l.zip m).map fun p => (some p.1, some p.2)
  | [], [], _ => by simp [zipFill]
  | _ :: _, [], h => by simp at h
  | [], _ :: _, h => by simp at h
  | a :: as, b :: bs, h => by
    rw [zipFill, zipFill_zip as bs (by simpa using h)]
    rfl

/-- C103: all pairs of an index map with fewer than fifteen pairs are shown, on one line. -/
theorem C103_map_small (m : IndexMap K) (hl : m.inputs.length = m.outputs.length) (hs : m.inputs.length < 15) :
    ∃ head t ws, m.printInfo = .ok (head ++ [.row t]) ∧ head.length = 3 ∧
      words t = "map".toList :: ":".toList :: ws ∧
      List.Forall₂ (fun p w => Spec.PairWord p.1 p.2 w) (m.inputs.zip m.outputs) ws := by
  refine ⟨[.title "IndexMap", .entry "Length" "" (.num (.fin m.inputs.length)), .title "Values"],
    "\t\tmap : ".toList ++ joinWith [' '] ((m.inputs.zip m.outputs).map fun p =>
      str12 (SFlt.ofFlt p.1) ++ [','] ++ str12 (SFlt.ofFlt p.2)),
    (m.inputs.zip m.outputs).map fun p => str12 (SFlt.ofFlt p.1) ++ [','] ++ str12 (SFlt.ofFlt p.2), ?_, rfl, ?_, ?_⟩
  · unfold IndexMap.printInfo
    simp only []
    rw [if_pos hs, zipFill_zip _ _ hl, List.map_map]
    rfl
  · have hw : ∀ w ∈ (m.inputs.zip m.outputs).map (fun p =>
        str12 (SFlt.ofFlt p.1) ++ [','] ++ str12 (SFlt.ofFlt p.2)), NoSpace w ∧ w ≠ [] := by
      intro w hw
      obtain ⟨p, -, rfl⟩ := List.mem_map.mp hw
      have w1 := str12_word _ (SFlt.valid_ofFlt p.1)
      have w2 := str12_word _ (SFlt.valid_ofFlt p.2)
      refine ⟨(w1.1.append ?_).append w2.1, by simp⟩
      intro c hc; revert c; decide
    have e : ("\t\tmap : ".toList : Txt) = '\t' :: '\t' :: ("map".toList ++ ' ' :: (":".toList ++ ' ' :: [])) := by
      decide
    rw [e]
    generalize (m.inputs.zip m.outputs).map (fun p =>
      str12 (SFlt.ofFlt p.1) ++ [','] ++ str12 (SFlt.ofFlt p.2)) = ws at hw ⊢
    simp only [List.cons_append, List.append_assoc, List.nil_append]
    rw [words_space _ _ (by decide), words_space _ _ (by decide)]
    rw [words_word "map".toList (by intro c hc; revert c; decide) (by decide) ' ' (by decide),
      words_word ":".toList (by intro c hc; revert c; decide) (by decide) ' ' (by decide)]
    rw [words_joined _ hw]
  · rw [List.forall₂_map_right_iff, List.forall₂_same]
    intro p _
    exact ⟨_, _, _, _, by simp, parseFloat_str12 _ (SFlt.valid_ofFlt _), parseFloat_str12 _ (SFlt.valid_ofFlt _),
      printed_reread _, printed_reread _⟩

/-- C103: of an index map with fifteen pairs or more the first and last three are shown. -/
theorem C103_map_large (m : IndexMap K) (hl : m.inputs.length = m.outputs.length) (hs : 15 ≤ m.inputs.length) :
    ∃ head first dots last, m.printInfo = .ok (head ++ first ++ [.row dots] ++ last) ∧ head.length = 3 ∧
      first.length = 3 ∧ last.length = 3 ∧ words dots = ["...".toList] ∧
      (∀ n < 3, ∃ line, first[n]? = some line ∧ Spec.PairShows m n line) ∧
      ∀ n < 3, ∃ line, last[n]? = some line ∧ Spec.PairShows m (m.inputs.length - 3 + n) line := by
  let txt (p : Flt K × Flt K) : Txt := show9 (SFlt.ofFlt p.1) ++ ", ".toList ++ show9 (SFlt.ofFlt p.2)
  have hts : (zipFill m.inputs m.outputs).mapM (fun p => do
      let a ← show9Opt p.1
      let b ← show9Opt p.2
      pure (a ++ ", ".toList ++ b)) = (.ok ((m.inputs.zip m.outputs).map txt) : Py (List Txt)) := by
    rw [zipFill_zip _ _ hl, py_mapM_map]
    exact py_mapM_ok _ txt _ fun p _ => rfl
  have key : ∀ n < m.inputs.length, ∃ line : Line K, (do
      let t ← pyGet ((m.inputs.zip m.outputs).map txt) n
      pure (.row (List.replicate 30 ' ' ++ t)) : Py (Line K)) = .ok line ∧ Spec.PairShows m n line := by
    intro n hn
    have hn2 : n < m.outputs.length := by omega
    refine ⟨.row (List.replicate 30 ' ' ++ txt (m.inputs[n], m.outputs[n])), ?_, _,
      core9 (SFlt.ofFlt m.inputs[n]), core9 (SFlt.ofFlt m.outputs[n]), m.inputs[n], m.outputs[n], rfl, ?_,
      List.getElem?_eq_getElem hn, List.getElem?_eq_getElem hn2,
      cellCore_shows false _ (fun h => absurd h (by decide)), cellCore_shows false _ (fun h => absurd h (by decide))⟩
    · rw [pyGet_of_lt (by simp; omega)]
      simp
    · rw [words_pad]
      show words (show9 _ ++ ", ".toList ++ show9 _) = _
      rw [show9_eq, show9_eq]
      unfold padLeft
      have e : (", ".toList : Txt) = [',', ' '] := by decide
      rw [e]
      simp only [List.append_assoc, List.cons_append, List.nil_append]
      rw [words_pad]
      have := words_word (core9 (SFlt.ofFlt m.inputs[n]) ++ [',']) ((core9_noSpace _).append
        (by intro c hc; revert c; decide)) (by simp) ' ' (by decide)
        (List.replicate (6 - (core9 (SFlt.ofFlt m.outputs[n])).length) ' ' ++ core9 (SFlt.ofFlt m.outputs[n]))
      simp only [List.append_assoc, List.cons_append, List.nil_append] at this
      rw [this, words_pad, words_single _ (core9_noSpace _) (core9_ne _)]
  obtain ⟨l1, h1, h2, h3⟩ := range_rows (P := Spec.PairShows m) 3 (fun n hn => key n (by omega))
  obtain ⟨l2, h4, h5, h6⟩ := range_rows (P := fun n => Spec.PairShows m (m.inputs.length - 3 + n)) 3
    (fun n hn => key (m.inputs.length - 3 + n) (by omega))
  refine ⟨[.title "IndexMap", .entry "Length" "" (.num (.fin m.inputs.length)), .title "Values"], l1,
    List.replicate 30 ' ' ++ "    ...    ".toList, l2, ?_, rfl, h2, h5, ?_, h3, h6⟩
  · unfold IndexMap.printInfo
    simp only []
    rw [if_neg (by omega), hts, py_ok_bind, h1, py_ok_bind, h4]
    rfl
  · rw [words_pad]
    decide

example : (IndexMap.printInfo ⟨2, [.fin 0, .fin (1 / 2)], [.fin 0, .fin 3]⟩ : Py (List (Line ℚ)))
    = .ok [.title "IndexMap", .entry "Length" "" (.num (.fin 2)), .title "Values",
      .row "\t\tmap : 0.0,0.0 0.5,3.0".toList] := by decide +kernel

/-! ## C104: failures -/

theorem py_mapM_iff {α β : Type} (f : α → Py β) (l : List α) :
    (∃ r, l.mapM f = .ok r) ↔ ∀ a ∈ l, ∃ b, f a = .ok b := by
  refine ⟨fun ⟨r, hr⟩ a ha => ?_, py_mapM_exists f l⟩
  have := List.forall₂_iff_get.mp (py_mapM_eq_ok.mp hr)
  obtain ⟨i, hi, rfl⟩ := List.mem_iff_getElem.mp ha
  exact ⟨_, this.2 i hi (by rw [← this.1]; exact hi)⟩

theorem py_bind_iff {α β : Type} (x : Py α) (f : α → β) :
    (∃ r, (do let a ← x; pure (f a)) = (.ok r : Py β)) ↔ ∃ a, x = .ok a := by
  constructor
  · rintro ⟨r, hr⟩
    obtain ⟨a, ha, -⟩ := py_bind_eq_ok.mp hr
    exact ⟨a, ha⟩
  · rintro ⟨a, rfl⟩
    exact ⟨_, rfl⟩

/-- The row is among those that are shown: all of up to ten, else the first and last three. -/
def Spec.ShownRow (rows n : ℕ) : Prop := n < rows ∧ (rows ≤ 10 ∨ n < 3 ∨ rows - 3 ≤ n)

/-- The dimension that counts the entries of a row. -/
def Spec.rowDim (dims : List ℕ) : Option ℕ :=
  if dims.length = 2 ∨ dims.length = 4 then dims.getLast? else dims[1]?

/-- Elements that can be shown. -/
def Spec.Showable : Elem K → Prop
  | .array a => ∃ c, Spec.rowDim a.dims = some c ∧ c ≠ 0 ∧ (a.integers = true →
      ∀ i x, a.values[i]? = some x → Spec.ShownRow (a.values.length / c) (i / c) → ∃ r, x = .fin r)
  | .indexMap m => m.inputs.length < 15 ∨ m.inputs.length = m.outputs.length
  | _ => True

/-- Nodes that can be shown, apart from the nodes within. -/
def Spec.NodeShowable (n : Node K) : Prop :=
  (∀ e ∈ n.base.elements, Spec.Showable e) ∧
  match n with
  | .leaf (.gamma ps) _ => Spec.GoodLetters GammaParam.channel ps
  | .leaf (.log ps) _ => Spec.GoodLetters LogParam.channel ps
  | _ => True

theorem printColumns_iff (dims : List ℕ) (c : ℕ) : printColumns dims = .ok c ↔ Spec.rowDim dims = some c := by
  unfold printColumns Spec.rowDim
  split
  · rw [pyGet_eq_ok, List.getLast?_eq_getElem?]
  · rw [pyGet_eq_ok]

theorem printCell_iff (integers : Bool) (x : Flt K) :
    (∃ t, printCell integers x = .ok t) ↔ (integers = true → ∃ r, x = .fin r) := by
  unfold printCell
  cases integers with
  | false => simp
  | true => cases x <;> simp [truncInt]

theorem printRow_iff (a : Arr K) (c n : ℕ) (hc : 0 < c) :
    (∃ l, printRow a c n = .ok l) ↔
      (a.integers = true → ∀ i x, a.values[i]? = some x → i / c = n → ∃ r, x = .fin r) := by
  unfold printRow
  rw [py_bind_iff, py_mapM_iff]
  simp only [printCell_iff]
  constructor
  · intro h hi i x hx hn
    refine h x ?_ hi
    have hj : i % c < c := Nat.mod_lt _ hc
    have e : n * c + i % c = i := by rw [← hn, Nat.mul_comm]; exact Nat.div_add_mod i c
    rw [List.mem_iff_getElem?]
    exact ⟨i % c, by rw [pySlice_getElem? a.values c n _ hj, e, hx]⟩
  · intro h x hx hi
    obtain ⟨j, hj⟩ := List.mem_iff_getElem?.mp hx
    have hjc : j < c := by
      by_contra hge
      have hlen : (pySlice a.values (n * c) ((n + 1) * c)).length ≤ c := by
        have e : (n + 1) * c - n * c = c := by rw [Nat.add_mul]; omega
        rw [pySlice, e, List.length_take]
        omega
      rw [List.getElem?_eq_none (by omega)] at hj
      cases hj
    rw [pySlice_getElem? a.values c n j hjc] at hj
    exact h hi _ x hj (by rw [Nat.mul_comm, Nat.mul_add_div hc, Nat.div_eq_of_lt hjc, Nat.add_zero])

theorem array_print_iff (a : Arr K) : (∃ ls, a.printInfo = .ok ls) ↔ Spec.Showable (.array a) := by
  show _ ↔ ∃ c, Spec.rowDim a.dims = some c ∧ _
  have key : ∀ c, 0 < c → ((∃ ls, (do
      let rows := a.values.length / c
      if 10 < rows then
        let first ← (List.range 3).mapM (printRow a c)
        let dots : Line K := .row (List.replicate (30 + c / 2 * 16) ' ' ++ "    ...    ".toList)
        let last ← (List.range 3).mapM fun i => printRow a c (rows - 3 + i)
        pure (([.title "Array", .entry "Dimensions" "" (.nums (a.dims.map fun d => .fin d)),
          .title "Values"] : List (Line K)) ++ first ++ [dots] ++ last)
      else
        let all ← (List.range rows).mapM (printRow a c)
        pure (([.title "Array", .entry "Dimensions" "" (.nums (a.dims.map fun d => .fin d)),
          .title "Values"] : List (Line K)) ++ all) : Py (List (Line K))) = .ok ls) ↔
      (a.integers = true → ∀ i x, a.values[i]? = some x → Spec.ShownRow (a.values.length / c) (i / c) →
        ∃ r, x = .fin r)) := by
    intro c hc
    simp only []
    generalize a.values.length / c = rows
    split
    · rename_i hr
      constructor
      · rintro ⟨ls, h⟩
        obtain ⟨l1, h1, h⟩ := py_bind_eq_ok.mp h
        obtain ⟨l2, h2, -⟩ := py_bind_eq_ok.mp h
        have k1 := (py_mapM_iff _ _).mp ⟨_, h1⟩
        have k2 := (py_mapM_iff _ _).mp ⟨_, h2⟩
        rintro hi i x hx ⟨hn, h10 | h3 | h3⟩
        · omega
        · exact (printRow_iff a c _ hc).mp (k1 (i / c) (List.mem_range.mpr h3)) hi i x hx rfl
        · have := k2 (i / c - (rows - 3)) (List.mem_range.mpr (by omega))
          rw [show rows - 3 + (i / c - (rows - 3)) = i / c by omega] at this
          exact (printRow_iff a c _ hc).mp this hi i x hx rfl
      · intro h
        obtain ⟨l1, h1⟩ := (py_mapM_iff (printRow a c) (List.range 3)).mpr fun n hn => by
          have hn := List.mem_range.mp hn
          exact (printRow_iff a c n hc).mpr fun hi i x hx e =>
            h hi i x hx ⟨by omega, Or.inr (Or.inl (by omega))⟩
        obtain ⟨l2, h2⟩ := (py_mapM_iff (fun i => printRow a c (rows - 3 + i)) (List.range 3)).mpr fun n hn => by
          have hn := List.mem_range.mp hn
          exact (printRow_iff a c _ hc).mpr fun hi i x hx e =>
            h hi i x hx ⟨by omega, Or.inr (Or.inr (by omega))⟩
        rw [h1, py_ok_bind, h2]
        exact ⟨_, rfl⟩
    · rename_i hr
      rw [py_bind_iff, py_mapM_iff]
      constructor
      · intro h hi i x hx hs
        exact (printRow_iff a c _ hc).mp (h (i / c) (List.mem_range.mpr hs.1)) hi i x hx rfl
      · intro h n hn
        have hn := List.mem_range.mp hn
        exact (printRow_iff a c n hc).mpr fun hi i x hx e => h hi i x hx ⟨by omega, Or.inl (by omega)⟩
  unfold Arr.printInfo
  constructor
  · rintro ⟨ls, h⟩
    obtain ⟨c, hc, h⟩ := py_bind_eq_ok.mp h
    split at h
    · cases h
    · rename_i h0
      exact ⟨c, (printColumns_iff _ _).mp hc, h0, (key c (by omega)).mp ⟨ls, h⟩⟩
  · rintro ⟨c, hc, h0, h⟩
    rw [(printColumns_iff _ _).mpr hc, py_ok_bind, if_neg h0]
    exact (key c (by omega)).mpr h

theorem zipFill_length {α β : Type} : ∀ (l : List α) (m : List β), (zipFill l m).length = max l.length m.length
  | [], [] => by simp [zipFill]
  | a :: as, [] => by simp [zipFill, zipFill_length as []]
  | [], b :: bs => by simp [zipFill]
  | a :: as, b :: bs => by simp [zipFill, zipFill_length as bs]

theorem zipFill_full {α β : Type} : ∀ (l : List α) (m : List β),
    (∀ p ∈ zipFill l m, p.1.isSome ∧ p.2.isSome) ↔ l.length = m.length
  | [], [] => by simp [zipFill]
  | a :: as, [] => by simp [zipFill]
  | [], b :: bs => by simp [zipFill]
  | a :: as, b :: bs => by
    have := zipFill_full as bs
    simp only [zipFill, List.mem_cons, forall_eq_or_imp, Option.isSome_some, and_self, true_and, List.length_cons,
      Nat.add_right_cancel_iff]
    exact this

theorem indexMap_print_iff (m : IndexMap K) : (∃ ls, m.printInfo = .ok ls) ↔ Spec.Showable (.indexMap m) := by
  show _ ↔ _ ∨ _
  unfold IndexMap.printInfo
  simp only []
  split
  · rename_i h
    exact ⟨fun _ => Or.inl h, fun _ => ⟨_, rfl⟩⟩
  · rename_i hl
    have h2 : (∃ ts, (zipFill m.inputs m.outputs).mapM (fun p => do
          let a ← show9Opt p.1
          let b ← show9Opt p.2
          pure (a ++ ", ".toList ++ b)) = (.ok ts : Py (List Txt))) ↔ m.inputs.length = m.outputs.length := by
      rw [py_mapM_iff, ← zipFill_full]
      refine forall₂_congr fun p _ => ?_
      obtain ⟨a, b⟩ := p
      cases a <;> cases b <;> simp [show9Opt]
    constructor
    · rintro ⟨ls, h⟩
      obtain ⟨ts, hts, -⟩ := py_bind_eq_ok.mp h
      exact Or.inr (h2.mp ⟨ts, hts⟩)
    · rintro (h | h)
      · omega
      obtain ⟨ts, hts⟩ := h2.mpr h
      rw [hts, py_ok_bind]
      have htl : ts.length = m.inputs.length := by
        rw [py_mapM_length hts, zipFill_length, ← h, max_self]
      have hline : ∀ n < m.inputs.length, ∃ l : Line K, (do
          let t ← pyGet ts n
          pure (.row (List.replicate 30 ' ' ++ t)) : Py (Line K)) = .ok l := by
        intro n hn
        rw [pyGet_of_lt (by omega)]
        exact ⟨_, rfl⟩
      obtain ⟨l1, h1⟩ := (py_mapM_iff _ (List.range 3)).mpr fun n hn =>
        hline n (by have := List.mem_range.mp hn; omega)
      obtain ⟨l2, h3⟩ := (py_mapM_iff _ (List.range 3)).mpr fun n hn =>
        hline (m.inputs.length - 3 + n) (by have := List.mem_range.mp hn; omega)
      rw [h1, py_ok_bind, h3]
      exact ⟨_, rfl⟩

theorem elem_print_iff (e : Elem K) : (∃ ls, e.printInfo = .ok ls) ↔ Spec.Showable e := by
  cases e with
  | comment tag t => exact ⟨fun _ => trivial, fun _ => ⟨_, rfl⟩⟩
  | info cs => exact ⟨fun _ => trivial, fun _ => ⟨_, rfl⟩⟩
  | array a => exact array_print_iff a
  | indexMap m => exact indexMap_print_iff m

theorem not_goodLetters {ρ : Type} {chan : ρ → Option String} {rows : List ρ} (h : ¬ Spec.GoodLetters chan rows) :
    ∃ p ∈ rows, ∃ c, chan p = some c ∧ c ≠ "R" ∧ c ≠ "G" ∧ c ≠ "B" := by
  unfold Spec.GoodLetters at h
  push Not at h
  obtain ⟨p, hp, h1, h2⟩ := h
  obtain ⟨c, hc⟩ := Option.ne_none_iff_exists'.mp h1
  refine ⟨p, hp, c, hc, ?_, ?_, ?_⟩
  · rintro rfl; exact h2 0 hc
  · rintro rfl; exact h2 1 hc
  · rintro rfl; exact h2 2 hc

theorem gammaParams_iff (ps : List (GammaParam K)) :
    (∃ r, gammaParams ps = .ok r) ↔ Spec.GoodLetters GammaParam.channel ps := by
  constructor
  · rintro ⟨r, hr⟩
    by_contra h
    have e : gammaParams ps = .error .keyError := rows_bad GammaParam.channel (fun p => (p.gamma, p.offset)) ps
      (List.replicate 3 (.fin 1, .fin 0)) (by simp) (not_goodLetters h)
    rw [e] at hr
    cases hr
  · intro h
    exact ⟨_, gammaParams_eq ps h⟩

/-- The row in effect for a channel. -/
def logFor (ps : List (LogParam K)) (i : Fin 3) : LogParam K :=
  (Spec.rowFor LogParam.channel ps i).getD ⟨.fin (6 / 10), .fin 685, .fin 95, .fin 1, .fin 0, none⟩

theorem logParams_for (ps : List (LogParam K)) (h : Spec.GoodLetters LogParam.channel ps) :
    logParams ps = .ok (List.ofFn fun i : Fin 3 => logFor ps i) := by
  unfold logParams
  refine (rows_fold LogParam.channel id _ ps h).trans ?_
  congr 2
  funext i
  unfold logFor
  rw [Option.map_id_apply]

theorem logParams_iff (ps : List (LogParam K)) :
    (∃ r, logParams ps = .ok r) ↔ Spec.GoodLetters LogParam.channel ps := by
  constructor
  · rintro ⟨r, hr⟩
    by_contra h
    have := rows_bad LogParam.channel id ps (List.replicate 3
      ⟨.fin (6 / 10), .fin 685, .fin 95, .fin 1, .fin 0, none⟩) (by simp) (not_goodLetters h)
    have e : logParams ps = .error .keyError := this
    rw [e] at hr
    cases hr
  · intro h
    exact ⟨_, logParams_for ps h⟩

theorem printBase_iff (type : String) (b : Base K) :
    (∃ ls, printBase type b = .ok ls) ↔ ∀ e ∈ b.elements, Spec.Showable e := by
  unfold printBase
  rw [py_bind_iff, py_mapM_iff]
  exact forall₂_congr fun e _ => elem_print_iff e

theorem printNodes_iff (ns : List (Node K)) :
    (∃ ls, printNodes ns = .ok ls) ↔ ∀ n ∈ ns, ∃ ls, n.printInfo = .ok ls := by
  induction ns with
  | nil => simp [printNodes]
  | cons n ns ih =>
    simp only [List.mem_cons, forall_eq_or_imp]
    rw [← ih, printNodes]
    constructor
    · rintro ⟨ls, h⟩
      obtain ⟨l1, h1, h⟩ := py_bind_eq_ok.mp h
      obtain ⟨l2, h2, -⟩ := py_bind_eq_ok.mp h
      exact ⟨⟨l1, h1⟩, ⟨l2, h2⟩⟩
    · rintro ⟨⟨l1, h1⟩, ⟨l2, h2⟩⟩
      rw [h1, py_ok_bind, h2]
      exact ⟨_, rfl⟩

theorem node_print_iff (n : Node K) :
    (∃ ls, n.printInfo = .ok ls) ↔ ∀ m, Within m n → Spec.NodeShowable m := by
  have two : ∀ {α β γ : Type} (x : Py α) (y : Py β) (f : α → β → γ),
      (∃ r, (do let a ← x; let b ← y; pure (f a b)) = (.ok r : Py γ)) ↔ (∃ a, x = .ok a) ∧ ∃ b, y = .ok b := by
    intro α β γ x y f
    constructor
    · rintro ⟨r, hr⟩
      obtain ⟨a, ha, hr⟩ := py_bind_eq_ok.mp hr
      obtain ⟨b, hb, -⟩ := py_bind_eq_ok.mp hr
      exact ⟨⟨a, ha⟩, ⟨b, hb⟩⟩
    · rintro ⟨⟨a, rfl⟩, ⟨b, rfl⟩⟩
      exact ⟨_, rfl⟩
  induction n using Node.ind with
  | hleaf k b =>
    have hw : (∀ m, Within m (.leaf k b) → Spec.NodeShowable m) ↔ Spec.NodeShowable (.leaf k b) :=
      ⟨fun h => h _ .self, fun h m hm => by cases hm; exact h⟩
    rw [hw, Node.printInfo, two, printBase_iff]
    unfold Spec.NodeShowable
    refine and_congr Iff.rfl ?_
    cases k with
    | gamma ps => rw [Kind.shown, py_bind_iff, gammaParams_iff]
    | log ps => rw [Kind.shown, py_bind_iff, logParams_iff]
    | _ => exact ⟨fun _ => trivial, fun _ => ⟨_, rfl⟩⟩
  | hgroup b cs ih =>
    rw [Node.printInfo, two, printBase_iff, printNodes_iff]
    constructor
    · rintro ⟨h1, h2⟩ m hm
      cases hm with
      | self => exact ⟨h1, trivial⟩
      | group hc hm => exact (ih _ hc).mp (h2 _ hc) m hm
    · intro h
      exact ⟨(h _ .self).1, fun c hc => (ih c hc).mpr fun m hm => h m (.group hc hm)⟩
  | href b w ns ih =>
    rw [Node.printInfo, two, printBase_iff, printNodes_iff]
    constructor
    · rintro ⟨h1, h2⟩ m hm
      cases hm with
      | self => exact ⟨h1, trivial⟩
      | ref hc hm => exact (ih _ hc).mp (h2 _ hc) m hm
    · intro h
      exact ⟨(h _ .self).1, fun c hc => (ih c hc).mpr fun m hm => h m (.ref hc hm)⟩
  | hmiss b w =>
    have hw : (∀ m, Within m (.refMissing b w) → Spec.NodeShowable m) ↔ Spec.NodeShowable (.refMissing b w : Node K) :=
      ⟨fun h => h _ .self, fun h m hm => by cases hm; exact h⟩
    rw [hw, Node.printInfo, py_bind_iff, printBase_iff]
    exact ⟨fun h => ⟨h, trivial⟩, fun h => h.1⟩

/-- C104 (partial): exactly when printing fails.  Missing: `C104_false`. -/
theorem C104_partial (l : PList K) :
    (∃ ls, l.printInfo = .ok ls) ↔
      (∀ e ∈ l.elements, Spec.Showable e) ∧ ∀ n ∈ l.processes, ∀ m, Within m n → Spec.NodeShowable m := by
  unfold PList.printInfo
  have hes : (∃ es, l.elements.mapM Elem.printInfo = .ok es) ↔ ∀ e ∈ l.elements, Spec.Showable e := by
    rw [py_mapM_iff]
    exact forall₂_congr fun e _ => elem_print_iff e
  have hns : (∃ ls, printNodes l.processes = .ok ls) ↔
      ∀ n ∈ l.processes, ∀ m, Within m n → Spec.NodeShowable m := by
    rw [printNodes_iff]
    exact forall₂_congr fun n _ => node_print_iff n
  rw [← hes, ← hns]
  constructor
  · rintro ⟨r, hr⟩
    obtain ⟨a, ha, hr⟩ := py_bind_eq_ok.mp hr
    obtain ⟨b, hb, -⟩ := py_bind_eq_ok.mp hr
    exact ⟨⟨a, ha⟩, ⟨b, hb⟩⟩
  · rintro ⟨⟨a, ha⟩, ⟨b, hb⟩⟩
    rw [ha, py_ok_bind, hb]
    exact ⟨_, rfl⟩

/-- A table of integers with an entry that is not a number. -/
def nanDoc : Xml :=
  .mk "ProcessList" [("id", "x")] none
    [.mk "LUT1D" [("inBitDepth", "8i"), ("outBitDepth", "8i")] none
      [.mk "Array" [("dim", "2 1")] (some "0 nan") []]]

def nanFiles (p : String) : Option File := if p = "x.clf" then some (.doc nanDoc) else none

/-- What becomes of reading the file, processing a pixel with it, and printing it. -/
def nanOutcome : Option (Py (List (Flt ℚ)) × Py (List (Line ℚ))) :=
  match readFile ratArith 0 nanFiles 3 true "x.clf" with
  | .ok l => some (processList ratArith 0 l.processes [.fin 0, .fin 0, .fin 0] 3, l.printInfo)
  | .error _ => none

/-- C104: the property is false: a file that can be read and used, but not printed. -/
theorem C104_false : ∃ (fs : String → Option File) (path : String) (l : PList ℚ),
    readFile ratArith 0 fs 3 true path = .ok l ∧
    (∃ out, processList ratArith 0 l.processes [.fin 0, .fin 0, .fin 0] 3 = .ok out) ∧
    l.printInfo = .error .valueError := by
  have h : nanOutcome = some (.ok [.fin 0, .fin 0, .fin 0], .error .valueError) := by decide +kernel
  unfold nanOutcome at h
  match hr : readFile ratArith 0 nanFiles 3 true "x.clf", h with
  | .ok l, h =>
    simp only [Option.some.injEq, Prod.mk.injEq] at h
    exact ⟨nanFiles, "x.clf", l, hr, ⟨_, h.1⟩, h.2⟩
  | .error _, h => cases h

/-! ## C102: parameters -/

/-- The parameters of a node, as they apply to red, green and blue. -/
def Spec.inEffect : Kind K → List (String × Shown K)
  | .cdl _ v =>
      (match v.slope with | some x => [("slope", .nums x)] | none => []) ++
      (match v.offset with | some x => [("offset", .nums x)] | none => []) ++
      (match v.power with | some x => [("power", .nums x)] | none => []) ++
      (match v.saturation with | some x => [("saturation", .num x)] | none => [])
  | .exposureContrast e c p => [("exposure", .num e), ("contrast", .num c), ("pivot", .num p)]
  | .gamma ps =>
      [("gamma", .nums [(Spec.gammaFor ps 0).1, (Spec.gammaFor ps 1).1, (Spec.gammaFor ps 2).1]),
       ("offset", .nums [(Spec.gammaFor ps 0).2, (Spec.gammaFor ps 1).2, (Spec.gammaFor ps 2).2])]
  | .log ps =>
      let row (f : LogParam K → Flt K) (dflt : Flt K) : Shown K :=
        .nums (([0, 1, 2] : List (Fin 3)).map fun i => match Spec.rowFor LogParam.channel ps i with
          | some p => f p
          | none => dflt)
      [("gamma", row (·.gamma) (.fin (6 / 10))), ("ref white", row (·.refWhite) (.fin 685)),
       ("ref black", row (·.refBlack) (.fin 95)), ("highlight", row (·.highlight) (.fin 1)),
       ("shadow", row (·.shadow) (.fin 0))]
  | _ => []

theorem logFor_field (ps : List (LogParam K)) (f : LogParam K → Flt K) (i : Fin 3) :
    f (logFor ps i) = match Spec.rowFor LogParam.channel ps i with
      | some p => f p
      | none => f ⟨.fin (6 / 10), .fin 685, .fin 95, .fin 1, .fin 0, none⟩ := by
  unfold logFor
  cases Spec.rowFor LogParam.channel ps i <;> rfl

/-- C102 (partial): the parameters are shown, each channel's own.  Missing: an ExposureContrast
whose exposure and contrast differ, `C102_false`. -/
theorem C102_partial (k : Kind K) (b : Base K) (lines : List (Line K))
    (hk : ∀ e c p, k = .exposureContrast e c p → e = c)
    (h : Node.printInfo (.leaf k b) = .ok lines) :
    ∃ head, lines = head ++ (Spec.inEffect k).map (fun s => .entry "Value" s.1 s.2) ++ [.title ""] := by
  rw [Node.printInfo] at h
  obtain ⟨head, -, h⟩ := py_bind_eq_ok.mp h
  obtain ⟨shown, hs, h⟩ := py_bind_eq_ok.mp h
  obtain rfl := Except.ok.inj h
  refine ⟨head, ?_⟩
  suffices hsh : shown = Spec.inEffect k by rw [hsh]
  cases k with
  | gamma ps =>
    rw [Kind.shown] at hs
    obtain ⟨r, hr, hs⟩ := py_bind_eq_ok.mp hs
    have hg := (gammaParams_iff ps).mp ⟨r, hr⟩
    rw [gammaParams_eq ps hg] at hr
    obtain rfl := Except.ok.inj hr
    obtain rfl := Except.ok.inj hs
    simp [Spec.inEffect, List.ofFn_succ]
  | log ps =>
    rw [Kind.shown] at hs
    obtain ⟨r, hr, hs⟩ := py_bind_eq_ok.mp hs
    have hg := (logParams_iff ps).mp ⟨r, hr⟩
    rw [logParams_for ps hg] at hr
    obtain rfl := Except.ok.inj hr
    obtain rfl := Except.ok.inj hs
    simp [Spec.inEffect, List.ofFn_succ, logFor_field]
  | exposureContrast e c p =>
    obtain rfl := hk e c p rfl
    exact (Except.ok.inj hs).symm
  | cdl cc v =>
    obtain rfl := Except.ok.inj hs
    obtain ⟨s, o, p, sat⟩ := v
    cases s <;> cases o <;> cases p <;> cases sat <;> rfl
  | range => exact (Except.ok.inj hs).symm
  | matrix => exact (Except.ok.inj hs).symm
  | lut1d => exact (Except.ok.inj hs).symm
  | lut3d => exact (Except.ok.inj hs).symm
  | plain => exact (Except.ok.inj hs).symm

/-- C102: an ExposureContrast shows its exposure as its contrast. -/
theorem C102_contrast (e c p : Flt K) (b : Base K) (lines : List (Line K))
    (h : Node.printInfo (.leaf (.exposureContrast e c p) b) = .ok lines) :
    ∃ head, lines = head ++ [.entry "Value" "exposure" (.num e), .entry "Value" "contrast" (.num e),
      .entry "Value" "pivot" (.num p), .title ""] := by
  rw [Node.printInfo] at h
  obtain ⟨head, -, h⟩ := py_bind_eq_ok.mp h
  obtain rfl := Except.ok.inj h
  exact ⟨head, by simp⟩

/-- C102: so the property is false. -/
theorem C102_false : ∃ (k : Kind ℚ) (b : Base ℚ) (lines : List (Line ℚ)),
    Node.printInfo (.leaf k b) = .ok lines ∧
    ∃ s ∈ Spec.inEffect k, ∀ kind, Line.entry kind s.1 s.2 ∉ lines :=
  ⟨.exposureContrast (.fin 1) (.fin 2) (.fin (18 / 100)), { attrs := [("style", .str "linear")] },
    [.title "ProcessNode type : ExposureContrast", .entry "Attribute" "style" (.attr (.str "linear")),
      .entry "Value" "exposure" (.num (.fin 1)), .entry "Value" "contrast" (.num (.fin 1)),
      .entry "Value" "pivot" (.num (.fin (18 / 100))), .title ""], by rfl,
    ("contrast", .num (.fin 2)), by simp [Spec.inEffect], by intro kind; simp⟩

/-- C102: attributes, value elements, dynamic parameters and elements are shown. -/
theorem C102_attributes (n : Node K) (lines : List (Line K)) (h : n.printInfo = .ok lines) :
    (∀ kv ∈ n.base.attrs, Line.entry "Attribute" kv.1 (.attr kv.2) ∈ lines) ∧
    (∀ kv ∈ n.base.values, Line.entry "Element" kv.1 (.num kv.2) ∈ lines) ∧
    (∀ d ∈ n.base.dyn, Line.entry "Dynamic Parameter" "" (.text (some d)) ∈ lines) ∧
    ∀ e ∈ n.base.elements, ∃ ls, e.printInfo = .ok ls ∧ ls <:+: lines := by
  have key : ∃ type head tail, printBase type n.base = .ok head ∧ lines = head ++ tail := by
    cases n with
    | leaf k b =>
      rw [Node.printInfo] at h
      obtain ⟨head, h1, h⟩ := py_bind_eq_ok.mp h
      obtain ⟨shown, -, h⟩ := py_bind_eq_ok.mp h
      obtain rfl := Except.ok.inj h
      exact ⟨_, head, _, h1, List.append_assoc _ _ _⟩
    | group b cs =>
      rw [Node.printInfo] at h
      obtain ⟨head, h1, h⟩ := py_bind_eq_ok.mp h
      obtain ⟨rest, -, h⟩ := py_bind_eq_ok.mp h
      obtain rfl := Except.ok.inj h
      exact ⟨_, head, _, h1, by rw [List.append_assoc, List.append_assoc]⟩
    | ref b w ns =>
      rw [Node.printInfo] at h
      obtain ⟨head, h1, h⟩ := py_bind_eq_ok.mp h
      obtain ⟨rest, -, h⟩ := py_bind_eq_ok.mp h
      obtain rfl := Except.ok.inj h
      exact ⟨_, head, _, h1, by rw [List.append_assoc, List.append_assoc]⟩
    | refMissing b w =>
      rw [Node.printInfo] at h
      obtain ⟨head, h1, h⟩ := py_bind_eq_ok.mp h
      obtain rfl := Except.ok.inj h
      exact ⟨_, head, _, h1, rfl⟩
  obtain ⟨type, head, tail, hb, rfl⟩ := key
  unfold printBase at hb
  obtain ⟨es, hes, hb⟩ := py_bind_eq_ok.mp hb
  obtain rfl := Except.ok.inj hb
  refine ⟨?_, ?_, ?_, ?_⟩
  · intro kv hkv
    simp only [List.mem_append, List.mem_map]
    exact Or.inl (Or.inl (Or.inl (Or.inl (Or.inr ⟨kv, hkv, rfl⟩))))
  · intro kv hkv
    simp only [List.mem_append, List.mem_map]
    exact Or.inl (Or.inl (Or.inl (Or.inr ⟨kv, hkv, rfl⟩)))
  · intro d hd
    simp only [List.mem_append, List.mem_map]
    exact Or.inl (Or.inl (Or.inr ⟨d, hd, rfl⟩))
  · intro e he
    have hf := List.forall₂_iff_get.mp (py_mapM_eq_ok.mp hes)
    obtain ⟨i, hi, rfl⟩ := List.mem_iff_getElem.mp he
    have hi' : i < es.length := by rw [← hf.1]; exact hi
    refine ⟨es[i], hf.2 i hi hi', ?_⟩
    have h1 : es[i] <:+: es.flatten := List.infix_of_mem_flatten (List.getElem_mem hi')
    exact (h1.trans (List.suffix_append _ _).isInfix).trans (List.prefix_append _ _).isInfix

theorem printNodes_infix (ns : List (Node K)) (lines : List (Line K)) (h : printNodes ns = .ok lines)
    (c : Node K) (hc : c ∈ ns) : ∃ ls, c.printInfo = .ok ls ∧ ls <:+: lines := by
  induction ns generalizing lines with
  | nil => cases hc
  | cons n ns ih =>
    rw [printNodes] at h
    obtain ⟨head, h1, h⟩ := py_bind_eq_ok.mp h
    obtain ⟨rest, h2, h⟩ := py_bind_eq_ok.mp h
    obtain rfl := Except.ok.inj h
    rcases List.mem_cons.mp hc with rfl | hc
    · exact ⟨head, h1, [], [.title ""] ++ rest, by simp⟩
    · obtain ⟨ls, h3, h4⟩ := ih rest h2 hc
      exact ⟨ls, h3, h4.trans (List.suffix_append _ _).isInfix⟩

/-- C102: what is shown for a node within groups and references is shown for these too. -/
theorem C102_within (n m : Node K) (hm : Within m n) (lines : List (Line K)) (h : n.printInfo = .ok lines) :
    ∃ ls, m.printInfo = .ok ls ∧ ls <:+: lines := by
  induction hm generalizing lines with
  | self => exact ⟨lines, h, List.infix_rfl⟩
  | group hc _ ih =>
    rw [Node.printInfo] at h
    obtain ⟨head, h1, h⟩ := py_bind_eq_ok.mp h
    obtain ⟨rest, h2, h⟩ := py_bind_eq_ok.mp h
    obtain rfl := Except.ok.inj h
    obtain ⟨l1, h3, h4⟩ := printNodes_infix _ _ h2 _ hc
    obtain ⟨l2, h5, h6⟩ := ih l1 h3
    exact ⟨l2, h5, h6.trans (h4.trans ⟨_, _, rfl⟩)⟩
  | ref hc _ ih =>
    rw [Node.printInfo] at h
    obtain ⟨head, h1, h⟩ := py_bind_eq_ok.mp h
    obtain ⟨rest, h2, h⟩ := py_bind_eq_ok.mp h
    obtain rfl := Except.ok.inj h
    obtain ⟨l1, h3, h4⟩ := printNodes_infix _ _ h2 _ hc
    obtain ⟨l2, h5, h6⟩ := ih l1 h3
    exact ⟨l2, h5, h6.trans (h4.trans ⟨_, _, rfl⟩)⟩

example : (Node.printInfo (.leaf (.gamma [⟨.fin 2, .fin 0, none⟩, ⟨.fin 3, .fin 1, some "G"⟩]) { attrs := [] }) :
    Py (List (Line ℚ))) = .ok [.title "ProcessNode type : Gamma",
      .entry "Value" "gamma" (.nums [.fin 2, .fin 3, .fin 2]),
      .entry "Value" "offset" (.nums [.fin 0, .fin 1, .fin 0]), .title ""] := by rfl

example : (Arr.printInfo ⟨[2, 3], [.fin 0, .fin (1 / 2), .fin 1, .fin 10, .fin (-1), .nan], false, false, "string"⟩ :
    Py (List (Line ℚ))) = .ok [.title "Array", .entry "Dimensions" "" (.nums [.fin 2, .fin 3]), .title "Values",
      .row "                                  0.000000000     0.500000000     1.000000000".toList,
      .row "                                 10.000000000    -1.000000000             nan".toList] := by
  decide +kernel

end CLF
