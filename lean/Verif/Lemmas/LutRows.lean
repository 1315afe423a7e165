import Verif.Spec.LutRows
import Verif.Lemmas.Csp
import Verif.Props.LutText

/-! # The rows of LUT files -/

set_option linter.unusedSectionVars false

namespace CLF

variable {K : Type} [Field K] [LinearOrder K] [IsStrictOrderedRing K] [FloorRing K]

theorem numbers_mapM {line : Txt} {vs : List (Flt K)} (h : Spec.RowNumbers line vs) :
    (words line).mapM (readFlt (K := K)) = .ok vs := py_mapM_eq_ok.mpr h

theorem blank_words {line : Txt} (h : Spec.BlankLine line) : words line = [] := by
  induction line with
  | nil => rfl
  | cons c t ih =>
    rw [words_space c t (h c (by simp)), ih fun d hd => h d (by simp [hd])]

/-! ### SPI 3D -/

/-- The table of a file with a good head. -/
theorem spi3dParse_head {content l0 l1 l2 : Txt} {a b c : ℕ} {lines : List Txt}
    (hc : splitLines content = l0 :: l1 :: l2 :: lines) (hh : Spec.Spi3dHead (K := K) l0 l1 l2 a b c) :
    spi3dParse (K := K) content = (do
      let rows ← lines.mapM fun line => do
        let vs ← (words line).mapM (readFlt (K := K))
        pure (vs.drop 3)
      pure ([a, b, c], rows.flatten)) := by
  obtain ⟨⟨v, ws, h0, hv⟩, ⟨ns, h1⟩, h2⟩ := hh
  have g0 : ∀ (x : Txt) (l : List Txt), pyGet (x :: l) 0 = .ok x := fun _ _ => rfl
  have g1 : ∀ (x y : Txt) (l : List Txt), pyGet (x :: y :: l) 1 = .ok y := fun _ _ _ => rfl
  have g2 : ∀ (x y z : Txt) (l : List Txt), pyGet (x :: y :: z :: l) 2 = .ok z := fun _ _ _ _ => rfl
  have t3 : spi3dThree (3 :: ns) = .ok true := rfl
  unfold spi3dParse
  simp only [hc, g0, h0, py_ok_bind, if_true, g1, hv]
  unfold spi3dTable
  simp only [g1, py_ok_bind, h1, t3, if_true, g2, h2]
  rfl

/-- Rows of three indices and a colour. -/
theorem spi3d_rows (lines : List Txt) (idx : ℕ → List (Flt K)) (col : ℕ → List (Flt K))
    (hi : ∀ m, (idx m).length = 3)
    (h : ∀ m (hm : m < lines.length), Spec.RowNumbers lines[m] (idx m ++ col m)) :
    lines.mapM (fun line => do
        let vs ← (words line).mapM (readFlt (K := K))
        pure (vs.drop 3))
      = .ok ((List.range lines.length).map col) := by
  rw [py_mapM_eq_ok, List.forall₂_iff_get]
  refine ⟨by simp, fun m h1 h2 => ?_⟩
  have := numbers_mapM (h m h1)
  simp only [List.get_eq_getElem, this, py_ok_bind, py_pure, List.getElem_map, List.getElem_range]
  rw [← hi m, List.drop_left]

/-! ### SPI 1D -/

/-- Two states that differ in the length alone. -/
def SameButLength (s t : Spi1d K) : Prop :=
  s.components = t.components ∧ s.samples = t.samples ∧ s.lo = t.lo ∧ s.hi = t.hi

/-- The length does not matter for anything else the loop collects. -/
theorem spi1dLoop_same (lines : List Txt) : ∀ s t : Spi1d K, SameButLength s t →
    (∃ e, spi1dLoop s lines = .error e ∧ spi1dLoop t lines = .error e) ∨
    ∃ s' t', spi1dLoop s lines = .ok s' ∧ spi1dLoop t lines = .ok t' ∧ SameButLength s' t' := by
  induction lines with
  | nil => exact fun s t h => Or.inr ⟨s, t, rfl, rfl, h⟩
  | cons line rest ih =>
    rintro ⟨sl, sc, ss, slo, shi⟩ ⟨tl, tc, ts, tlo, thi⟩ ⟨h1, h2, h3, h4⟩
    simp only at h1 h2 h3 h4
    subst h1 h2 h3 h4
    rw [spi1dLoop, spi1dLoop]
    rcases hA : pyGet (words line) 0 with e | w
    · exact Or.inl ⟨e, rfl, rfl⟩
    simp only [py_ok_bind]
    split
    · rcases pyGet (words line) 1 with e | v
      · exact Or.inl ⟨e, rfl, rfl⟩
      simp only [py_ok_bind]
      rcases parseNat v with e | n
      · exact Or.inl ⟨e, rfl, rfl⟩
      simp only [py_ok_bind]
      split
      · exact Or.inr ⟨_, _, rfl, rfl, rfl, rfl, rfl, rfl⟩
      · exact ih _ _ ⟨rfl, rfl, rfl, rfl⟩
    split
    · rcases pyGet (words line) 1 with e | v
      · exact Or.inl ⟨e, rfl, rfl⟩
      simp only [py_ok_bind]
      rcases readFlt (K := K) v with e | x
      · exact Or.inl ⟨e, rfl, rfl⟩
      simp only [py_ok_bind]
      rcases pyGet (words line) 2 with e | v
      · exact Or.inl ⟨e, rfl, rfl⟩
      simp only [py_ok_bind]
      rcases readFlt (K := K) v with e | y
      · exact Or.inl ⟨e, rfl, rfl⟩
      exact ih _ _ ⟨rfl, rfl, rfl, rfl⟩
    split
    · rcases pyGet (words line) 1 with e | v
      · exact Or.inl ⟨e, rfl, rfl⟩
      simp only [py_ok_bind]
      rcases parseNat v with e | n
      · exact Or.inl ⟨e, rfl, rfl⟩
      exact ih _ _ ⟨rfl, rfl, rfl, rfl⟩
    split
    · rcases pyGet (words line) 1 with e | v
      · exact Or.inl ⟨e, rfl, rfl⟩
      simp only [py_ok_bind]
      rcases parseNat v with e | n
      · exact Or.inl ⟨e, rfl, rfl⟩
      exact ih _ _ ⟨rfl, rfl, rfl, rfl⟩
    split
    · exact ih _ _ ⟨rfl, rfl, rfl, rfl⟩
    · rcases (words line).mapM (readFlt (K := K)) with e | n
      · exact Or.inl ⟨e, rfl, rfl⟩
      exact ih _ _ ⟨rfl, rfl, rfl, rfl⟩

/-- Lines after the same prefix. -/
theorem spi1dLoop_prefix (pre post post' : List Txt)
    (h : ∀ s : Spi1d K,
      (∃ e, spi1dLoop s post = .error e ∧ spi1dLoop s post' = .error e) ∨
      ∃ s' t', spi1dLoop s post = .ok s' ∧ spi1dLoop s post' = .ok t' ∧ SameButLength s' t') :
    ∀ s : Spi1d K,
      (∃ e, spi1dLoop s (pre ++ post) = .error e ∧ spi1dLoop s (pre ++ post') = .error e) ∨
      ∃ s' t', spi1dLoop s (pre ++ post) = .ok s' ∧ spi1dLoop s (pre ++ post') = .ok t' ∧
        SameButLength s' t' := by
  induction pre with
  | nil => exact h
  | cons line rest ih =>
    intro s
    rw [List.cons_append, List.cons_append, spi1dLoop, spi1dLoop]
    rcases hA : pyGet (words line) 0 with e | w
    · exact Or.inl ⟨e, rfl, rfl⟩
    simp only [py_ok_bind]
    split
    · rcases pyGet (words line) 1 with e | v
      · exact Or.inl ⟨e, rfl, rfl⟩
      simp only [py_ok_bind]
      rcases parseNat v with e | n
      · exact Or.inl ⟨e, rfl, rfl⟩
      simp only [py_ok_bind]
      split
      · exact Or.inr ⟨_, _, rfl, rfl, rfl, rfl, rfl, rfl⟩
      · exact ih _
    split
    · rcases pyGet (words line) 1 with e | v
      · exact Or.inl ⟨e, rfl, rfl⟩
      simp only [py_ok_bind]
      rcases readFlt (K := K) v with e | x
      · exact Or.inl ⟨e, rfl, rfl⟩
      simp only [py_ok_bind]
      rcases pyGet (words line) 2 with e | v
      · exact Or.inl ⟨e, rfl, rfl⟩
      simp only [py_ok_bind]
      rcases readFlt (K := K) v with e | y
      · exact Or.inl ⟨e, rfl, rfl⟩
      exact ih _
    split
    · rcases pyGet (words line) 1 with e | v
      · exact Or.inl ⟨e, rfl, rfl⟩
      simp only [py_ok_bind]
      rcases parseNat v with e | n
      · exact Or.inl ⟨e, rfl, rfl⟩
      exact ih _
    split
    · rcases pyGet (words line) 1 with e | v
      · exact Or.inl ⟨e, rfl, rfl⟩
      simp only [py_ok_bind]
      rcases parseNat v with e | n
      · exact Or.inl ⟨e, rfl, rfl⟩
      exact ih _
    split
    · exact ih _
    · rcases (words line).mapM (readFlt (K := K)) with e | n
      · exact Or.inl ⟨e, rfl, rfl⟩
      exact ih _

/-- A line with the length sets the length. -/
theorem spi1dLoop_length {line t : Txt} {ws : List Txt} {n : ℕ}
    (hw : words line = "Length".toList :: t :: ws) (ht : parseNat t = .ok n) (rest : List Txt)
    (s : Spi1d K) : spi1dLoop s (line :: rest) = spi1dLoop { s with length := n } rest := by
  rw [spi1dLoop, hw]
  have g0 : pyGet ("Length".toList :: t :: ws) 0 = .ok "Length".toList := rfl
  have g1 : pyGet ("Length".toList :: t :: ws) 1 = .ok t := rfl
  simp only [g0, g1, py_ok_bind, ht]
  rw [if_neg (by decide), if_neg (by decide), if_pos trivial]

/-- A blank line ends reading with an error, unless a wrong version came before it. -/
theorem spi1dLoop_blank {line : Txt} (hb : Spec.BlankLine line) (pre post : List Txt)
    (hp : ∀ l ∈ pre, ¬ Spec.WrongVersion l) :
    ∀ s : Spi1d K, ∃ e, spi1dLoop s (pre ++ line :: post) = .error e := by
  induction pre with
  | nil =>
    intro s
    refine ⟨.indexError, ?_⟩
    rw [List.nil_append, spi1dLoop, blank_words hb]
    rfl
  | cons l pre ih =>
    intro s
    have ih := ih fun l h => hp l (by simp [h])
    have hl := hp l (by simp)
    rw [List.cons_append, spi1dLoop]
    refine bind_fails _ _ fun w hw => ?_
    split
    · refine bind_fails _ _ fun v hv => bind_fails _ _ fun n hn => ?_
      rw [if_neg]
      · exact ih _
      · intro hne
        refine hl ?_
        rename_i hV
        subst hV
        rcases hws : words l with _ | ⟨w0, _ | ⟨w1, ws⟩⟩
        · rw [hws] at hw; cases hw
        · rw [hws] at hv; cases hv
        · rw [hws] at hw hv
          cases hw
          cases hv
          exact ⟨_, n, ws, hws, hn, hne⟩
    split
    · exact bind_fails _ _ fun _ _ => bind_fails _ _ fun _ _ => bind_fails _ _ fun _ _ =>
        bind_fails _ _ fun _ _ => ih _
    split
    · exact bind_fails _ _ fun _ _ => bind_fails _ _ fun _ _ => ih _
    split
    · exact bind_fails _ _ fun _ _ => bind_fails _ _ fun _ _ => ih _
    split
    · exact ih _
    · exact bind_fails _ _ fun _ _ => ih _

/-! ### CSP -/

/-- The first `d` entries, each read as three numbers, go to their places. -/
theorem cspLoop_some (place : ℕ → Py ℕ) (σ τ : ℕ → ℕ) (N : ℕ)
    (hplace : ∀ k < N, place k = .ok (σ k)) (hσ : ∀ k < N, σ k < N ∧ τ (σ k) = k)
    (hτ : ∀ q < N, σ (τ q) = q ∧ τ q < N) (text : ℕ → Txt) (c : ℕ → List (Flt K))
    (hc : ∀ k < N, (c k).length = 3)
    (htext : ∀ k < N, (words (text k)).mapM (readFlt (K := K)) = .ok (c k)) (rest : List Txt)
    (d k : ℕ) (hk : k + d ≤ N) :
    cspLoop place k ((List.range N).flatMap fun q => if τ q < k then c (τ q) else List.replicate 3 (.fin 0))
        ((List.range' k d).map text ++ rest)
      = cspLoop place (k + d)
        ((List.range N).flatMap fun q => if τ q < k + d then c (τ q) else List.replicate 3 (.fin 0)) rest := by
  induction d generalizing k with
  | zero => simp
  | succ d ih =>
    have hkN : k < N := by omega
    have := ih (k + 1) (by omega)
    rw [show k + 1 + d = k + (d + 1) by omega] at this
    rw [List.range'_succ, List.map_cons, List.cons_append, cspLoop, hplace k hkN, py_ok_bind,
      htext k hkN, py_ok_bind, if_pos (hc k hkN), ← this]
    congr 1
    have hcap : ((List.range N).flatMap fun q => if τ q < k then c (τ q) else List.replicate 3 (.fin 0))
        = (List.range N).flatMap fun q =>
          if q < N ∧ τ q < k then c (τ q) else List.replicate 3 (.fin (0 : K)) := by
      rw [List.flatMap_def, List.flatMap_def]
      congr 1
      refine List.map_congr_left fun q hq => ?_
      simp [List.mem_range.mp hq]
    rw [hcap, splice_flat N _ _ _ (hσ k hkN).1, List.flatMap_def, List.flatMap_def]
    · congr 1
      refine List.map_congr_left fun q hq => ?_
      have hq := List.mem_range.mp hq
      by_cases h : q = σ k
      · subst h
        rw [if_pos rfl, (hσ k hkN).2, if_pos (by omega)]
      · have : τ q ≠ k := by
          intro e
          apply h
          rw [← e, (hτ q hq).1]
        rw [if_neg h]
        by_cases h1 : τ q < k
        · rw [if_pos ⟨hq, h1⟩, if_pos (by omega)]
        · rw [if_neg (by simp [h1]), if_neg (by omega)]
    · intro q
      split_ifs with h
      · exact hc _ (by omega)
      · simp

/-- A list of lines of a one-dimensional table: rows of three numbers, or blank lines, for which
the table keeps its zeros. -/
theorem cspLoop_line (lines : List Txt) (rows : List (List (Flt K)))
    (h : List.Forall₂ (fun l r => (Spec.RowNumbers l r ∧ r.length = 3) ∨
      (Spec.BlankLine l ∧ r = List.replicate 3 (.fin 0))) lines rows) :
    ∀ (d k : ℕ) (P : List (Flt K)), P.length = k * 3 →
      (lines.length ≤ d ∨ List.Forall₂ (fun l r => Spec.RowNumbers l r ∧ r.length = 3) lines rows) →
      cspLoop .ok k (P ++ List.replicate (d * 3) (.fin 0)) lines
        = .ok (P ++ rows.flatten ++ List.replicate ((d - lines.length) * 3) (.fin 0)) := by
  induction h with
  | nil =>
    intro d k P _ _
    simp [cspLoop]
  | @cons l r lines rows hl _ ih =>
    intro d k P hP hd
    have hr : r.length = 3 := by
      rcases hl with ⟨-, h⟩ | ⟨-, h⟩
      · exact h
      · rw [h]; simp
    have hd' : lines.length ≤ d - 1 ∨
        List.Forall₂ (fun l r => Spec.RowNumbers l r ∧ r.length = 3) lines rows := by
      rcases hd with hd | hd
      · left; simp only [List.length_cons] at hd; omega
      · right; cases hd; assumption
    have step : ∀ T : List (Flt K), T = P ++ r ++ List.replicate ((d - 1) * 3) (.fin 0) →
        cspLoop .ok (k + 1) T lines
        = .ok (P ++ (r :: rows).flatten ++ List.replicate ((d - (l :: lines).length) * 3) (.fin 0)) := by
      rintro T rfl
      rw [ih (d - 1) (k + 1) (P ++ r) (by simp [hP, hr]; omega) hd']
      simp only [List.flatten_cons, List.append_assoc, List.length_cons]
      rw [show d - 1 - lines.length = d - (lines.length + 1) by omega]
    rw [cspLoop, py_ok_bind]
    rcases hl with ⟨hn, -⟩ | ⟨hb, rfl⟩
    · rw [numbers_mapM hn, py_ok_bind, if_pos hr]
      refine step _ ?_
      unfold listSplice
      rw [← hP, List.take_left, Nat.max_eq_right (by omega), List.drop_append, Nat.add_sub_cancel_left,
        List.drop_of_length_le (by omega), List.nil_append, List.drop_replicate]
      congr 2
      omega
    · rw [blank_words hb, List.mapM_nil, py_pure, py_ok_bind, if_neg (by simp)]
      refine step _ ?_
      have hpos : 1 ≤ d := by
        rcases hd with hd | hd
        · simp only [List.length_cons] at hd; omega
        · exfalso
          cases hd with
          | cons h _ =>
            have := h.1
            unfold Spec.RowNumbers at this
            rw [blank_words hb] at this
            have := this.length_eq
            simp at this
      rw [List.append_assoc, List.replicate_append_replicate]
      congr 2
      omega

/-- Blank lines leave the table as it is. -/
theorem cspLoop_blanks (place : ℕ → Py ℕ) (hp : ∀ k, ∃ i, place k = .ok i) (blanks : List Txt)
    (hb : ∀ l ∈ blanks, Spec.BlankLine l) (k : ℕ) (samples : List (Flt K)) :
    cspLoop place k samples blanks = .ok samples := by
  induction blanks generalizing k with
  | nil => rfl
  | cons l rest ih =>
    obtain ⟨i, hi⟩ := hp k
    rw [cspLoop, hi, py_ok_bind, blank_words (hb l (by simp)), List.mapM_nil, py_pure, py_ok_bind,
      if_neg (by simp), ih fun l h => hb l (by simp [h])]

/-- Blank lines at the end do not matter. -/
theorem cspLoop_trailing (place : ℕ → Py ℕ) (hp : ∀ k, ∃ i, place k = .ok i) (lines blanks : List Txt)
    (hb : ∀ l ∈ blanks, Spec.BlankLine l) (k : ℕ) (samples : List (Flt K)) :
    cspLoop place k samples (lines ++ blanks) = cspLoop place k samples lines := by
  induction lines generalizing k samples with
  | nil => rw [List.nil_append, cspLoop_blanks place hp blanks hb, cspLoop]
  | cons l rest ih =>
    rw [List.cons_append, cspLoop, cspLoop]
    simp only [ih]

end CLF
