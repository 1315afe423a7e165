import Verif.Lemmas.LutRows
import Verif.Props.Csp
import Verif.Spec.Cube

/-! # Properties C139, C140 and C141: the rows of LUT files -/

set_option linter.unusedSectionVars false

namespace CLF

variable {K : Type} [Field K] [LinearOrder K] [IsStrictOrderedRing K] [FloorRing K]

/-! ### C139: the indices of SPI 3D rows -/

/-- C139: the colours are stored in the order of the lines, whatever indices the lines name. -/
theorem C139_order {content l0 l1 l2 : Txt} {a b c : ℕ} {lines : List Txt}
    (hc : splitLines content = l0 :: l1 :: l2 :: lines) (hh : Spec.Spi3dHead (K := K) l0 l1 l2 a b c)
    (idx col : ℕ → Fin 3 → Flt K)
    (h : ∀ m (hm : m < lines.length), Spec.RowNumbers lines[m] (List.ofFn (idx m) ++ List.ofFn (col m)))
    (inverse : Bool) (interpolation : AVal) :
    ∃ n arr, readSpi3d (K := K) content inverse interpolation = .ok [.leaf .lut3d n] ∧
      n.array = .ok arr ∧ arr.dims = [a, b, c, 3] ∧
      arr.values = (List.range lines.length).flatMap fun m => List.ofFn (col m) := by
  unfold readSpi3d
  rw [spi3dParse_head hc hh, spi3d_rows lines (fun m => List.ofFn (idx m)) (fun m => List.ofFn (col m))
    (by simp) h]
  exact ⟨_, _, rfl, array_added _ _, rfl, by rw [List.flatMap_def]⟩

theorem flatMap_box {α : Type} (a b c : ℕ) (f : ℕ → Fin 3 → α) :
    ((List.range (a * b * c)).flatMap fun q => List.ofFn (f q))
      = Spec.cube fun (r : Fin a) (g : Fin b) (bl : Fin c) => f ((r * b + g) * c + bl) := by
  rw [← range_mul_flatMap, ← range_mul_flatMap]
  unfold Spec.cube
  rw [List.flatMap_def, map_range_ofFn]
  congr 2
  funext r
  rw [List.flatMap_def, map_range_ofFn]
  congr 2
  funext g
  rw [List.flatMap_def, map_range_ofFn]

/-- An ascending enumeration of `N` numbers below `N`. -/
theorem ascending_id (N : ℕ) (f : ℕ → ℕ) (hf : ∀ m < N, f m < N)
    (hm : ∀ m m', m < m' → m' < N → f m < f m') (m : ℕ) (h : m < N) : f m = m := by
  have up : ∀ d m, m + d < N → f m + d ≤ f (m + d) := by
    intro d
    induction d with
    | zero => intro m _; simp
    | succ d ih =>
      intro m hd
      have := ih m (by omega)
      have := hm (m + d) (m + (d + 1)) (by omega) hd
      omega
  have h1 := up m 0 (by omega)
  have h2 := up (N - 1 - m) m (by omega)
  have h3 := hf (m + (N - 1 - m)) (by omega)
  rw [Nat.zero_add] at h1
  omega

theorem code_before {b c : ℕ} {p q : ℕ × ℕ × ℕ} (h : Spec.Before p q) (hp : p.2.1 < b ∧ p.2.2 < c)
    : (p.1 * b + p.2.1) * c + p.2.2 < (q.1 * b + q.2.1) * c + q.2.2 := by
  obtain ⟨pi, pj, pk⟩ := p
  obtain ⟨qi, qj, qk⟩ := q
  simp only [Spec.Before] at h hp
  have key : ∀ x y : ℕ, x < y → x * c + pk < y * c + qk := by
    intro x y hxy
    have : (x + 1) * c ≤ y * c := Nat.mul_le_mul_right c hxy
    rw [Nat.add_mul, Nat.one_mul] at this
    omega
  rcases h with h | ⟨rfl, h | ⟨rfl, h⟩⟩
  · refine key _ _ ?_
    have : (pi + 1) * b ≤ qi * b := Nat.mul_le_mul_right b h
    rw [Nat.add_mul, Nat.one_mul] at this
    simp only
    omega
  · exact key _ _ (by simp only; omega)
  · simp only; omega

/-- C139, as far as it holds: in a complete file whose rows ascend, blue fastest, the colour of each
row is stored at the lattice point that the row names.  Missing: rows in another order. -/
theorem C139_ascending_partial {content l0 l1 l2 : Txt} {a b c : ℕ} {lines : List Txt}
    (hc : splitLines content = l0 :: l1 :: l2 :: lines) (hh : Spec.Spi3dHead (K := K) l0 l1 l2 a b c)
    (hl : lines.length = a * b * c) (p : ℕ → ℕ × ℕ × ℕ) (col : ℕ → Fin 3 → Flt K)
    (h : ∀ m (hm : m < lines.length), Spec.RowNumbers lines[m]
      ([.fin ((p m).1 : K), .fin ((p m).2.1 : K), .fin ((p m).2.2 : K)] ++ List.ofFn (col m)))
    (hp : ∀ m < lines.length, (p m).1 < a ∧ (p m).2.1 < b ∧ (p m).2.2 < c)
    (hasc : ∀ m m', m < m' → m' < lines.length → Spec.Before (p m) (p m'))
    (inverse : Bool) (interpolation : AVal) :
    ∃ n arr, ∃ V : Fin a → Fin b → Fin c → Fin 3 → Flt K,
      readSpi3d (K := K) content inverse interpolation = .ok [.leaf .lut3d n] ∧
      n.array = .ok arr ∧ arr.dims = [a, b, c, 3] ∧ arr.values = Spec.cube V ∧
      ∀ m (hm : m < lines.length),
        V ⟨(p m).1, (hp m hm).1⟩ ⟨(p m).2.1, (hp m hm).2.1⟩ ⟨(p m).2.2, (hp m hm).2.2⟩ = col m := by
  obtain ⟨n, arr, h1, h2, h3, h4⟩ := C139_order hc hh
    (fun m => ![.fin ((p m).1 : K), .fin ((p m).2.1 : K), .fin ((p m).2.2 : K)]) col
    (fun m hm => by simpa using h m hm) inverse interpolation
  refine ⟨n, arr, fun r g bl => col ((r * b + g) * c + bl), h1, h2, h3, ?_, ?_⟩
  · rw [h4, hl, flatMap_box]
  · intro m hm
    have := ascending_id (a * b * c) (fun m => ((p m).1 * b + (p m).2.1) * c + (p m).2.2) ?_ ?_ m
      (by omega)
    · simp only at this ⊢
      rw [this]
    · intro m hm
      obtain ⟨q1, q2, q3⟩ := hp m (by omega)
      have e1 : ((p m).1 + 1) * b ≤ a * b := Nat.mul_le_mul_right b q1
      have e2 : ((p m).1 * b + (p m).2.1 + 1) * c ≤ a * b * c := by
        refine Nat.mul_le_mul_right c ?_
        rw [Nat.add_mul, Nat.one_mul] at e1
        omega
      rw [Nat.add_mul, Nat.one_mul] at e2
      omega
    · intro m m' hmm hm'
      exact code_before (hasc m m' hmm (by omega)) (hp m (by omega)).2

/-- The identity cube with its rows in the order red fastest. -/
def redFastest : Txt :=
  "SPILUT 1.0\n3 3\n2 2 2\n0 0 0 0 0 0\n1 0 0 1 0 0\n0 1 0 0 1 0\n1 1 0 1 1 0\n0 0 1 0 0 1\n1 0 1 1 0 1\n0 1 1 0 1 1\n1 1 1 1 1 1\n".toList

/-- The values of the table of the only node. -/
def onlyValues (r : Py (List (Node K))) : Option (List ℕ × List (Flt K)) :=
  match r with
  | .ok [.leaf _ b] =>
    match b.array with
    | .ok a => some (a.dims, a.values)
    | _ => none
  | _ => none

/-- C139 is false: an identity cube listed red fastest, each row with its indices, is read as the
cube that swaps red and blue. -/
theorem C139_false :
    (∀ line ∈ (splitLines redFastest).drop 3, ∃ r g b : Flt ℚ, Spec.RowNumbers line [r, g, b, r, g, b]) ∧
    onlyValues (readSpi3d (K := ℚ) redFastest) = some ([2, 2, 2, 3],
      Spec.cube fun (r g b : Fin 2) => ![.fin ((b : ℕ) : ℚ), .fin ((g : ℕ) : ℚ), .fin ((r : ℕ) : ℚ)]) := by
  constructor
  · have h : ∀ line ∈ (splitLines redFastest).drop 3, ∃ v ∈ (List.range 8),
        (words line).mapM (readFlt (K := ℚ)) = .ok
          [.fin ((v % 2 : ℕ) : ℚ), .fin ((v / 2 % 2 : ℕ) : ℚ), .fin ((v / 4 : ℕ) : ℚ),
           .fin ((v % 2 : ℕ) : ℚ), .fin ((v / 2 % 2 : ℕ) : ℚ), .fin ((v / 4 : ℕ) : ℚ)] := by
      decide +kernel
    intro line hl
    obtain ⟨v, -, hv⟩ := h line hl
    exact ⟨_, _, _, py_mapM_eq_ok.mp hv⟩
  · decide +kernel

/-- The same cube listed blue fastest. -/
example : onlyValues (readSpi3d (K := ℚ)
    "SPILUT 1.0\n3 3\n2 1 2\n0 0 0 0 0 0\n0 0 1 0 0 1\n1 0 0 1 0 0\n1 0 1 1 0 1\n".toList)
    = some ([2, 1, 2, 3],
      Spec.cube fun (r : Fin 2) (_ : Fin 1) (b : Fin 2) => ![.fin ((r : ℕ) : ℚ), .fin 0, .fin ((b : ℕ) : ℚ)]) := by
  decide +kernel

/-- The hypotheses of `C139_ascending_partial` are met by a file of two rows. -/
example : ∃ n arr, ∃ V : Fin 1 → Fin 1 → Fin 2 → Fin 3 → Flt ℚ,
    readSpi3d (K := ℚ) "SPILUT 1.0\n3 3\n1 1 2\n0 0 0 1 2 3\n0 0 1 4 5 6\n".toList = .ok [.leaf .lut3d n] ∧
    n.array = .ok arr ∧ arr.dims = [1, 1, 2, 3] ∧ arr.values = Spec.cube V ∧ V 0 0 1 = ![.fin 4, .fin 5, .fin 6] := by
  obtain ⟨n, arr, V, h1, h2, h3, h4, h5⟩ := C139_ascending_partial (K := ℚ)
    (content := "SPILUT 1.0\n3 3\n1 1 2\n0 0 0 1 2 3\n0 0 1 4 5 6\n".toList)
    (l0 := "SPILUT 1.0".toList) (l1 := "3 3".toList) (l2 := "1 1 2".toList) (a := 1) (b := 1) (c := 2)
    (lines := ["0 0 0 1 2 3".toList, "0 0 1 4 5 6".toList]) (by decide)
    ⟨⟨"1.0".toList, [], by decide, by decide +kernel⟩, ⟨[3], by decide⟩, by decide⟩ rfl
    (fun m => (0, 0, m)) (fun m => if m = 0 then ![.fin 1, .fin 2, .fin 3] else ![.fin 4, .fin 5, .fin 6])
    (by
      have : ∀ m : Fin 2, (words (["0 0 0 1 2 3".toList, "0 0 1 4 5 6".toList][m])).mapM (readFlt (K := ℚ))
          = .ok ([.fin 0, .fin 0, .fin ((m : ℕ) : ℚ)] ++ List.ofFn
            (if (m : ℕ) = 0 then ![.fin 1, .fin 2, .fin 3] else ![.fin 4, .fin 5, .fin 6])) := by
        decide +kernel
      intro m hm
      have := py_mapM_eq_ok.mp (this ⟨m, hm⟩)
      simpa [Spec.RowNumbers] using this)
    (by intro m hm; simp at hm ⊢; omega)
    (by intro m m' h _; right; exact ⟨rfl, Or.inr ⟨rfl, h⟩⟩) false (.str "linear")
  exact ⟨n, arr, V, h1, h2, h3, h4, by simpa using h5 1 (by decide)⟩

/-! ### C140: numbers of rows -/

/-- C140 is false for SPI 1D: a file and the same file with another length are read forwards in the
same way. -/
theorem C140_spi1d {content content' line line' t t' : Txt} {ws ws' pre post : List Txt} {n n' : ℕ}
    (hc : splitLines content = pre ++ line :: post) (hc' : splitLines content' = pre ++ line' :: post)
    (hw : words line = "Length".toList :: t :: ws) (hw' : words line' = "Length".toList :: t' :: ws')
    (ht : parseNat t = .ok n) (ht' : parseNat t' = .ok n') (interpolation : AVal) (u v : Bool) :
    readSpi1d (K := K) content false interpolation u v
      = readSpi1d (K := K) content' false interpolation u v := by
  have key : ∀ s : Spi1d K,
      (∃ e, spi1dLoop s (line :: post) = .error e ∧ spi1dLoop s (line' :: post) = .error e) ∨
      ∃ s' t', spi1dLoop s (line :: post) = .ok s' ∧ spi1dLoop s (line' :: post) = .ok t' ∧
        SameButLength s' t' := by
    intro s
    rw [spi1dLoop_length hw ht, spi1dLoop_length hw' ht']
    exact spi1dLoop_same post _ _ ⟨rfl, rfl, rfl, rfl⟩
  unfold readSpi1d spi1dParse
  rw [hc, hc']
  rcases spi1dLoop_prefix pre _ _ key ⟨0, 0, [], .fin 0, .fin 1⟩ with
    ⟨e, h1, h2⟩ | ⟨s', t', h1, h2, h3, h4, h5, h6⟩
  · rw [h1, h2]
  · rw [h1, h2]
    simp only [py_ok_bind, Bool.not_false, if_true, h3, h4, h5, h6]

/-- C140 is false for SPI 1D: a file of five samples cut off after two is read as a table of two. -/
theorem C140_spi1d_false : onlyValues (readSpi1d (K := ℚ)
    "Version 1\nFrom 0 1\nLength 5\nComponents 1\n{\n0\n1\n".toList) = some ([2, 1], [.fin 0, .fin 1]) := by
  decide +kernel

/-- C140 is false for CSP 1D: missing rows are read as zeros, and further rows make the table
longer. -/
theorem C140_csp1d (n : ℕ) (lines : List Txt) (c : ℕ → Fin 3 → Flt K)
    (h : ∀ m (hm : m < lines.length), Spec.RowNumbers lines[m] (List.ofFn (c m))) :
    cspTable false [n] lines = .ok (((List.range lines.length).flatMap fun m => List.ofFn (c m)) ++
      List.replicate ((n - lines.length) * 3) (.fin 0)) := by
  have hf : List.Forall₂ (fun l r => Spec.RowNumbers l r ∧ r.length = 3) lines
      ((List.range lines.length).map fun m => List.ofFn (c m)) := by
    rw [List.forall₂_iff_get]
    refine ⟨by simp, fun m h1 h2 => ?_⟩
    simpa using h m h1
  unfold cspTable
  have hg : pyGet [n] 0 = .ok n := rfl
  simp only [hg, py_ok_bind, Bool.false_eq_true, if_false]
  have := cspLoop_line lines _ (hf.imp fun _ _ => Or.inl) n 0 [] rfl (Or.inr hf)
  rw [List.nil_append, List.nil_append] at this
  rw [this, List.flatMap_def]

/-- C140, as far as it holds, CSP 3D: the table has the size of the header, and the rows that are
there are at their places.  Missing: missing rows are not reported, but read as zeros. -/
theorem C140_csp3d_partial (n : ℕ) (hn : 0 < n) (lines : List Txt) (hl : lines.length ≤ n * n * n)
    (c : ℕ → Fin 3 → Flt K)
    (h : ∀ m (hm : m < lines.length), Spec.RowNumbers lines[m] (List.ofFn (c m))) :
    cspTable true [n, n, n] lines = .ok (Spec.cube fun (r g b : Fin n) =>
      if r + n * (g + n * b) < lines.length then c (r + n * (g + n * b)) else fun _ => .fin 0) := by
  have hg : ∀ i, i < 3 → pyGet [n, n, n] i = .ok n := by
    intro i hi
    interval_cases i <;> rfl
  have hlines : lines = (List.range' 0 lines.length).map
      (fun k => if hk : k < lines.length then lines[k] else "0 0 0".toList) ++ [] := by
    rw [List.append_nil]
    apply List.ext_getElem
    · simp
    · intro k h1 h2
      simp [h1]
  have zeros : (words "0 0 0".toList).mapM (readFlt (K := K)) = .ok (List.ofFn fun _ : Fin 3 => .fin 0) := by
    have w : words "0 0 0".toList = [['0'], ['0'], ['0']] := by decide
    have r : readFlt (K := K) ['0'] = .ok (.fin 0) := by
      have : parseFloat (K := K) ['0'] = .ok (.fin false ((0 : ℕ) * 10 ^ (0 : ℤ))) := rfl
      rw [readFlt, this]
      simp [SFlt.toFlt]
    rw [w]
    simp [List.mapM_cons, r, List.ofFn_succ]
  unfold cspTable
  simp only [hg 0 (by omega), hg 1 (by omega), hg 2 (by omega), py_ok_bind, if_true]
  rw [replicate_flat (n * n * n) (flip3 n)
    fun k => List.ofFn (if k < lines.length then c k else fun _ => .fin 0)]
  refine (congrArg (cspLoop (cspIndex3 n n) 0 _) hlines).trans ?_
  rw [cspLoop_some (cspIndex3 n n) (flip3 n) (flip3 n) (n * n * n)
      (fun k _ => cspIndex3_eq n k hn) (flip3_lt n) (fun q hq => ⟨(flip3_lt n q hq).2, (flip3_lt n q hq).1⟩)
      (fun k => if hk : k < lines.length then lines[k] else "0 0 0".toList)
      (fun k => List.ofFn (if k < lines.length then c k else fun _ => .fin 0)) (by simp) ?_ []
      lines.length 0 (by omega), cspLoop]
  · have e : ∀ q, (if flip3 n q < 0 + lines.length then
        List.ofFn (if flip3 n q < lines.length then c (flip3 n q) else fun _ => (.fin 0 : Flt K))
        else List.replicate 3 (.fin 0))
        = List.ofFn (if flip3 n q < lines.length then c (flip3 n q) else fun _ => .fin 0) := by
      intro q
      rw [Nat.zero_add]
      split_ifs
      · rfl
      · simp
    simp only [e]
    rw [flatMap_cube n fun q => if flip3 n q < lines.length then c (flip3 n q) else fun _ => .fin 0]
    congr 2
    funext r g b
    rw [show ((r : ℕ) * n + g) * n + b = b + n * (g + n * r) by ring,
      flip3_digits n b g r b.2 g.2, show ((b : ℕ) * n + g) * n + r = r + n * (g + n * b) by ring]
  · intro k hk
    by_cases hk' : k < lines.length
    · simp only [hk', dif_pos, if_true]
      exact numbers_mapM (h k hk')
    · simp only [hk', dif_neg, not_false_iff, if_false]
      exact zeros

/-- C140 is false for CSP 3D: one row too many replaces the colour at lattice point (0, 1, 0). -/
theorem C140_csp3d_long (n : ℕ) (hn : 1 < n) (lines : List Txt) (hl : lines.length = n * n * n + 1)
    (c : ℕ → Fin 3 → Flt K)
    (h : ∀ m (hm : m < lines.length), Spec.RowNumbers lines[m] (List.ofFn (c m))) :
    cspTable true [n, n, n] lines = .ok (Spec.cube fun (r g b : Fin n) =>
      if (r : ℕ) = 0 ∧ (g : ℕ) = 1 ∧ (b : ℕ) = 0 then c (n * n * n) else c (r + n * (g + n * b))) := by
  have hg : ∀ i, i < 3 → pyGet [n, n, n] i = .ok n := by
    intro i hi
    interval_cases i <;> rfl
  have hlast : Spec.RowNumbers (lines[n * n * n]'(by omega)) (List.ofFn (c (n * n * n))) := h _ (by omega)
  have hlines : lines = (List.range' 0 (n * n * n)).map (fun k => lines[k]?.getD []) ++
      [lines[n * n * n]'(by omega)] := by
    apply List.ext_getElem
    · simp [hl]
    · intro k h1 h2
      by_cases hk : k < n * n * n
      · rw [List.getElem_append_left (by simpa using hk)]
        simp [h1]
      · have : k = n * n * n := by omega
        subst this
        rw [List.getElem_append_right (by simp)]
        simp
  have hflip : flip3 n (n * n * n) = n := by
    unfold flip3
    have h0 : n * n * n / n = n * n := Nat.mul_div_cancel _ (by omega)
    have h1 : n * n * n / (n * n) = n := by
      rw [Nat.mul_div_cancel_left]; positivity
    rw [h0, h1, Nat.mul_mod_left, Nat.mul_mod_left]
    simp
  have hlt : n < n * n * n := by
    have h1 : n * 2 ≤ n * n := Nat.mul_le_mul_left n hn
    have h2 : n * n * 1 ≤ n * n * n := Nat.mul_le_mul_left (n * n) hn.le
    omega
  unfold cspTable
  simp only [hg 0 (by omega), hg 1 (by omega), hg 2 (by omega), py_ok_bind, if_true]
  rw [replicate_flat (n * n * n) (flip3 n) fun k => List.ofFn (c k)]
  refine (congrArg (cspLoop (cspIndex3 n n) 0 _) hlines).trans ?_
  rw [cspLoop_places (cspIndex3 n n) (flip3 n) (flip3 n) (n * n * n)
      (fun k _ => cspIndex3_eq n k (by omega)) (flip3_lt n)
      (fun q hq => ⟨(flip3_lt n q hq).2, (flip3_lt n q hq).1⟩)
      (fun k => lines[k]?.getD []) (fun k => List.ofFn (c k)) (by simp) ?_ _ (n * n * n) 0 (by omega),
    cspLoop, cspIndex3_eq n _ (by omega), py_ok_bind, numbers_mapM hlast, py_ok_bind, if_pos (by simp),
    cspLoop, hflip, splice_flat (n * n * n) _ (by simp) n hlt _]
  · have e : ∀ q, (if q = n then List.ofFn (c (n * n * n)) else List.ofFn (c (flip3 n q)))
        = List.ofFn (if q = n then c (n * n * n) else c (flip3 n q)) := by
      intro q
      split_ifs <;> rfl
    simp only [e]
    rw [flatMap_cube n fun q => if q = n then c (n * n * n) else c (flip3 n q)]
    congr 2
    funext r g b
    have hb := b.2
    have hg2 := g.2
    have hd : ((r : ℕ) * n + g) * n + b = n ↔ (r : ℕ) = 0 ∧ (g : ℕ) = 1 ∧ (b : ℕ) = 0 := by
      constructor
      · intro e
        have e1 : (r : ℕ) * n + g = 1 ∧ (b : ℕ) = 0 := by
          rcases Nat.lt_trichotomy ((r : ℕ) * n + g) 1 with h1 | h1 | h1
          · rw [Nat.lt_one_iff] at h1
            rw [h1] at e
            omega
          · rw [h1] at e
            exact ⟨h1, by omega⟩
          · have := Nat.mul_le_mul_right n (show 2 ≤ (r : ℕ) * n + g from h1)
            omega
        have e2 : (r : ℕ) = 0 := by
          rcases Nat.eq_zero_or_pos (r : ℕ) with h1 | h1
          · exact h1
          · have := Nat.mul_le_mul_right n h1
            omega
        rw [e2] at e1
        exact ⟨e2, by omega, e1.2⟩
      · rintro ⟨h1, h2, h3⟩
        rw [h1, h2, h3]
        simp
    by_cases hq : (r : ℕ) = 0 ∧ (g : ℕ) = 1 ∧ (b : ℕ) = 0
    · rw [if_pos (hd.mpr hq), if_pos hq]
    · rw [if_neg (mt hd.mp hq), if_neg hq]
      rw [show ((r : ℕ) * n + g) * n + b = b + n * (g + n * r) by ring,
        flip3_digits n b g r b.2 g.2]
      congr 1
      ring
  · intro k hk
    have hk' : k < lines.length := by omega
    have := numbers_mapM (h k hk')
    simpa [hk'] using this

/-- C140 is false for SPI 3D: a file of sides 2 with three rows is read. -/
theorem C140_spi3d_false : onlyValues (readSpi3d (K := ℚ)
    "SPILUT 1.0\n3 3\n2 2 2\n0 0 0 0 0 0\n0 0 1 0 0 1\n0 1 0 0 1 0\n".toList)
    = some ([2, 2, 2, 3], [.fin 0, .fin 0, .fin 0, .fin 0, .fin 0, .fin 1, .fin 0, .fin 1, .fin 0]) := by
  decide +kernel

/-- Three rows of a table of five; five rows of a table of three. -/
example : cspTable (K := ℚ) false [5] (["0 0 0", "1 2 3", "4 5 6"].map String.toList)
      = .ok ([0, 0, 0, 1, 2, 3, 4, 5, 6, 0, 0, 0, 0, 0, 0].map .fin) ∧
    cspTable (K := ℚ) false [1] (["7 8 9", "1 2 3", "4 5 6"].map String.toList)
      = .ok ([7, 8, 9, 1, 2, 3, 4, 5, 6].map .fin) := by
  decide +kernel

/-- A cube of side 2 with only two rows, and with nine. -/
example : cspTable (K := ℚ) true [2, 2, 2] (["1 1 1", "2 2 2"].map String.toList)
      = .ok (Spec.cube fun (r g b : Fin 2) => if (g : ℕ) + b = 0 then fun _ => .fin ((r + 1 : ℕ) : ℚ) else fun _ => .fin 0) ∧
    cspTable (K := ℚ) true [2, 2, 2] (["1 1 1", "2 2 2", "3 3 3", "4 4 4", "5 5 5", "6 6 6", "7 7 7", "8 8 8",
        "9 9 9"].map String.toList)
      = .ok ([1, 1, 1, 5, 5, 5, 9, 9, 9, 7, 7, 7, 2, 2, 2, 6, 6, 6, 4, 4, 4, 8, 8, 8].map .fin) := by
  decide +kernel

/-! ### C141: blank lines -/

/-- `ls'` is `ls` with blank lines put in. -/
inductive Spec.Spaced : List Txt → List Txt → Prop
  | nil : Spec.Spaced [] []
  | keep (l : Txt) {ls ls' : List Txt} : Spec.Spaced ls ls' → Spec.Spaced (l :: ls) (l :: ls')
  | blank (l : Txt) {ls ls' : List Txt} : Spec.BlankLine l → Spec.Spaced ls ls' → Spec.Spaced ls (l :: ls')

/-- C141, as far as it holds, SPI 3D: blank lines after the first three make no difference. -/
theorem C141_spi3d_partial {content content' l0 l1 l2 : Txt} {a b c : ℕ} {lines lines' : List Txt}
    (hc : splitLines content = l0 :: l1 :: l2 :: lines) (hc' : splitLines content' = l0 :: l1 :: l2 :: lines')
    (hh : Spec.Spi3dHead (K := K) l0 l1 l2 a b c) (hs : Spec.Spaced lines lines') (inverse : Bool)
    (interpolation : AVal) :
    readSpi3d (K := K) content' inverse interpolation = readSpi3d (K := K) content inverse interpolation := by
  have key : (do
      let rows ← lines'.mapM fun line => do
        let vs ← (words line).mapM (readFlt (K := K))
        pure (vs.drop 3)
      pure ([a, b, c], rows.flatten) : Py (List ℕ × List (Flt K))) = (do
      let rows ← lines.mapM fun line => do
        let vs ← (words line).mapM (readFlt (K := K))
        pure (vs.drop 3)
      pure ([a, b, c], rows.flatten)) := by
    have gen : ∀ acc : List (Flt K), (do
        let rows ← lines'.mapM fun line => do
          let vs ← (words line).mapM (readFlt (K := K))
          pure (vs.drop 3)
        pure ([a, b, c], acc ++ rows.flatten) : Py (List ℕ × List (Flt K))) = (do
        let rows ← lines.mapM fun line => do
          let vs ← (words line).mapM (readFlt (K := K))
          pure (vs.drop 3)
        pure ([a, b, c], acc ++ rows.flatten)) := by
      clear hc hc'
      induction hs with
      | nil => exact fun _ => rfl
      | keep l _ ih =>
        intro acc
        rw [List.mapM_cons, List.mapM_cons]
        simp only [bind_assoc, pure_bind, List.flatten_cons, ← List.append_assoc] at ih ⊢
        congr 1
        funext vs
        exact ih _
      | blank l hb _ ih =>
        intro acc
        rw [List.mapM_cons, blank_words hb]
        simp only [List.mapM_nil, bind_assoc, pure_bind, List.flatten_cons, List.drop_nil, List.nil_append]
        simpa only [bind_assoc] using ih acc
    simpa using gen []
  unfold readSpi3d
  rw [spi3dParse_head hc hh, spi3dParse_head hc' hh, key]

/-- C141 is false for SPI 1D: no file with a blank line is read, unless a wrong version comes
first. -/
theorem C141_spi1d {content line : Txt} {pre post : List Txt}
    (hc : splitLines content = pre ++ line :: post) (hb : Spec.BlankLine line)
    (hp : ∀ l ∈ pre, ¬ Spec.WrongVersion l) (inverse : Bool) (interpolation : AVal) (u v : Bool) :
    ∃ e, readSpi1d (K := K) content inverse interpolation u v = .error e := by
  unfold readSpi1d spi1dParse
  rw [hc]
  obtain ⟨e, he⟩ := spi1dLoop_blank (K := K) hb pre post hp ⟨0, 0, [], .fin 0, .fin 1⟩
  exact ⟨e, by rw [he]; rfl⟩

/-- C141 is false for SPI 1D: a blank line at the end keeps a file from being read. -/
theorem C141_spi1d_false :
    onlyValues (readSpi1d (K := ℚ) "Version 1\nLength 2\nComponents 1\n{\n0\n1\n}\n".toList)
      = some ([2, 1], [.fin 0, .fin 1]) ∧
    (match readSpi1d (K := ℚ) "Version 1\nLength 2\nComponents 1\n{\n0\n1\n}\n\n".toList with
      | .error e => some e | .ok _ => none) = some .indexError := by
  decide +kernel

/-- C141 is false for CSP: a blank line among the rows of a table of `n` becomes a row of zeros, and
the rows after it move down. -/
theorem C141_csp (n : ℕ) (A B : List Txt) (line : Txt) (hn : A.length + 1 + B.length ≤ n)
    (hb : Spec.BlankLine line) (c d : ℕ → Fin 3 → Flt K)
    (hA : ∀ m (hm : m < A.length), Spec.RowNumbers A[m] (List.ofFn (c m)))
    (hB : ∀ m (hm : m < B.length), Spec.RowNumbers B[m] (List.ofFn (d m))) :
    cspTable false [n] (A ++ line :: B) = .ok (((List.range A.length).flatMap fun m => List.ofFn (c m)) ++
      [.fin 0, .fin 0, .fin 0] ++ ((List.range B.length).flatMap fun m => List.ofFn (d m)) ++
      List.replicate ((n - (A.length + 1 + B.length)) * 3) (.fin 0)) := by
  have rows : ∀ (L : List Txt) (f : ℕ → Fin 3 → Flt K),
      (∀ m (hm : m < L.length), Spec.RowNumbers L[m] (List.ofFn (f m))) →
      List.Forall₂ (fun l r => (Spec.RowNumbers l r ∧ r.length = 3) ∨
        (Spec.BlankLine l ∧ r = List.replicate 3 (.fin 0))) L
        ((List.range L.length).map fun m => List.ofFn (f m)) := by
    intro L f h
    rw [List.forall₂_iff_get]
    refine ⟨by simp, fun m h1 h2 => Or.inl ?_⟩
    simpa using h m h1
  unfold cspTable
  have hg : pyGet [n] 0 = .ok n := rfl
  simp only [hg, py_ok_bind, Bool.false_eq_true, if_false]
  have := cspLoop_line (A ++ line :: B) _
    (List.rel_append (rows A c hA) (List.Forall₂.cons (Or.inr ⟨hb, rfl⟩) (rows B d hB))) n 0 [] rfl
    (Or.inl (by simp; omega))
  rw [List.nil_append, List.nil_append] at this
  rw [this]
  simp [List.flatMap_def]
  omega

/-- C141, as far as it holds, CSP: blank lines after a table make no difference. -/
theorem C141_csp_partial (three : Bool) (n0 n1 n2 : ℕ) (h0 : 0 < n0) (h1 : 0 < n1)
    (lines blanks : List Txt) (hb : ∀ l ∈ blanks, Spec.BlankLine l) :
    cspTable (K := K) three [n0, n1, n2] (lines ++ blanks) = cspTable three [n0, n1, n2] lines := by
  have g0 : pyGet [n0, n1, n2] 0 = .ok n0 := rfl
  have g1 : pyGet [n0, n1, n2] 1 = .ok n1 := rfl
  have g2 : pyGet [n0, n1, n2] 2 = .ok n2 := rfl
  unfold cspTable
  simp only [g0, g1, g2, py_ok_bind]
  split
  · refine cspLoop_trailing _ (fun k => ?_) lines blanks hb _ _
    unfold cspIndex3 pyDivNat
    simp only [h0.ne', if_false, h1.ne', py_ok_bind, Nat.mul_eq_zero, or_self]
    exact ⟨_, rfl⟩
  · exact cspLoop_trailing _ (fun k => ⟨k, rfl⟩) lines blanks hb _ _

/-- A blank line in the middle of the rows, and one after them. -/
example : cspTable (K := ℚ) false [3] (["1 2 3", "  ", "4 5 6", "7 8 9"].map String.toList)
      = .ok ([1, 2, 3, 0, 0, 0, 4, 5, 6, 7, 8, 9].map .fin) ∧
    cspTable (K := ℚ) false [3] (["1 2 3", "4 5 6", "7 8 9", " ", ""].map String.toList)
      = .ok ([1, 2, 3, 4, 5, 6, 7, 8, 9].map .fin) := by
  decide +kernel

/-- C141 is false for CSP: a file of two entries with a blank line between them. -/
theorem C141_csp_false :
    (match readCsp (K := ℚ) "CSPLUTV100\n1D\n\nBEGIN METADATA\nEND METADATA\n\n2\n0 1\n0 1\n2\n0 1\n0 1\n2\n0 1\n0 1\n\n2\n0 0 0\n\n1 1 1\n".toList with
      | .ok [_, .leaf _ b] => (match b.array with | .ok a => some (a.dims, a.values) | _ => none)
      | _ => none) = some ([3, 3], [0, 0, 0, 0, 0, 0, 1, 1, 1].map .fin) := by
  decide +kernel

end CLF
