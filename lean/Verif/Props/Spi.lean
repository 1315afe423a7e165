import Verif.Lemmas.Spi
import Verif.Props.Inverse
import Verif.Props.Lut3d
import Verif.Lemmas.IndexMapText

/-! # Properties C53 and C54: SPI files -/

set_option linter.unusedSectionVars false

namespace CLF

variable {K : Type} [Field K] [LinearOrder K] [IsStrictOrderedRing K] [FloorRing K]

/-! ### C53 -/

/-- The lines of a written one-dimensional file. -/
def spi1dLines (fmt : Flt K → Txt) (lo hi : Flt K) (rows : List (List (Flt K))) (entries k : ℕ) :
    List Txt :=
  ["Version 1".toList, "From ".toList ++ show6 (.ofFlt lo) ++ [' '] ++ show6 (.ofFlt hi),
    "Length ".toList ++ showNat entries, "Components ".toList ++ showNat k, ['{']] ++
    (rows.map (spi1dRow fmt) ++ [['}']])

theorem writeSpi1d_eq (fmt : Flt K → Txt) (lo hi : Flt K) (data : List (Flt K))
    (entries channels components : ℕ) (rows : List (List (Flt K)))
    (h : (List.range entries).mapM (fun i => (List.range (min (min 3 components) channels)).mapM
      fun j => pyGet data (i * channels + j)) = .ok rows) :
    writeSpi1d fmt lo hi data entries channels components
      = .ok (unlines (spi1dLines fmt lo hi rows entries (min (min 3 components) channels))) := by
  have hm : (List.range entries).mapM (fun i => do
      let vs ← (List.range (min (min 3 components) channels)).mapM fun j =>
        pyGet data (i * channels + j)
      pure (List.replicate 8 ' ' ++ (vs.map fun v => ' ' :: fmt v).flatten ++ ['\n']))
      = .ok (rows.map fun r => spi1dRow fmt r ++ ['\n']) := by
    rw [py_mapM_eq_ok] at h ⊢
    clear * - h
    generalize List.range entries = l at h ⊢
    induction h with
    | nil => exact .nil
    | cons h1 _ ih =>
      refine .cons ?_ ih
      simp only [h1, py_ok_bind, py_pure]
      rfl
  unfold writeSpi1d
  dsimp only
  rw [hm, py_ok_bind, py_pure]
  congr 1
  have e1 : "Version 1\nFrom ".toList = "Version 1".toList ++ '\n' :: "From ".toList := rfl
  have e2 : "\nLength ".toList = '\n' :: "Length ".toList := rfl
  have e3 : "\nComponents ".toList = '\n' :: "Components ".toList := rfl
  have e4 : "\n{\n".toList = ['\n', '{', '\n'] := rfl
  have e5 : "}\n".toList = ['}', '\n'] := rfl
  rw [e1, e2, e3, e4, e5]
  simp only [spi1dLines, unlines, List.map_cons, List.map_append, List.flatten_cons,
    List.flatten_append, List.cons_append, List.append_assoc, List.nil_append, List.map_nil,
    List.flatten_nil, List.map_map, List.append_nil]
  rfl

theorem words_two (a b : Txt) (ha : NoSpace a ∧ a ≠ []) (hb : NoSpace b ∧ b ≠ []) :
    words (a ++ ' ' :: b) = [a, b] := by
  rw [words_word a ha.1 ha.2 ' ' (by decide), words_single b hb.1 hb.2]

theorem noSpace_lit (s : Txt) (h : s.all (fun c => !isSpace c) = true) : NoSpace s := by
  intro c hc
  have := List.all_eq_true.mp h c hc
  simpa using this

theorem oneLine_lit (s : Txt) (h : s.all (fun c => c ≠ '\n' ∧ c ≠ '\r') = true) : OneLine s := by
  intro c hc
  have := List.all_eq_true.mp h c hc
  simpa using this

theorem spi1dParse_lines {fmt : Flt K → Txt} {back : Flt K → Flt K} (h : Spec.NumText fmt back)
    (lo hi : Flt K) (rows : List (List (Flt K))) (hr : ∀ r ∈ rows, r ≠ []) (entries k : ℕ) :
    spi1dParse (unlines (spi1dLines fmt lo hi rows entries k))
      = .ok ⟨entries, k, rows.flatten.map back, back6 lo, back6 hi⟩ := by
  have hn : ∀ n, NoSpace (showNat n) ∧ showNat n ≠ [] :=
    fun n => ⟨(isDig_showNat n).noSpace, showNat_ne n⟩
  have hsix : ∀ x : Flt K, NoSpace (show6 (.ofFlt x)) ∧ show6 (.ofFlt x) ≠ [] :=
    fun x => ⟨show6_noSpace _, show6_ne _⟩
  have w1 : words "Version 1".toList = ["Version".toList, "1".toList] := by decide
  have w2 : words ("From ".toList ++ show6 (.ofFlt lo) ++ [' '] ++ show6 (.ofFlt hi))
      = ["From".toList, show6 (.ofFlt lo), show6 (.ofFlt hi)] := by
    have : "From ".toList ++ show6 (.ofFlt lo) ++ [' '] ++ show6 (.ofFlt hi)
        = "From".toList ++ ' ' :: (show6 (.ofFlt lo) ++ ' ' :: show6 (.ofFlt hi)) := by
      rw [show "From ".toList = "From".toList ++ [' '] from rfl]
      simp only [List.append_assoc, List.cons_append, List.nil_append]
    rw [this, words_word _ (noSpace_lit _ (by decide)) (by decide) ' ' (by decide),
      words_two _ _ (hsix lo) (hsix hi)]
  have w3 : words ("Length ".toList ++ showNat entries) = ["Length".toList, showNat entries] := by
    rw [show "Length ".toList ++ showNat entries = "Length".toList ++ ' ' :: showNat entries by
      rw [show "Length ".toList = "Length".toList ++ [' '] from rfl]
      simp only [List.append_assoc, List.cons_append, List.nil_append],
      words_two _ _ ⟨noSpace_lit _ (by decide), by decide⟩ (hn _)]
  have w4 : words ("Components ".toList ++ showNat k) = ["Components".toList, showNat k] := by
    rw [show "Components ".toList ++ showNat k = "Components".toList ++ ' ' :: showNat k by
      rw [show "Components ".toList = "Components".toList ++ [' '] from rfl]
      simp only [List.append_assoc, List.cons_append, List.nil_append],
      words_two _ _ ⟨noSpace_lit _ (by decide), by decide⟩ (hn _)]
  unfold spi1dParse
  rw [splitLines_unlines]
  · have d1 : ("From".toList = "Version".toList) = False := by decide
    have d2 : ("Length".toList = "Version".toList) = False := by decide
    have d3 : ("Length".toList = "From".toList) = False := by decide
    have d4 : ("Components".toList = "Version".toList) = False := by decide
    have d5 : ("Components".toList = "From".toList) = False := by decide
    have d6 : ("Components".toList = "Length".toList) = False := by decide
    have g : ∀ (a b : Txt), pyGet [a, b] 0 = .ok a ∧ pyGet [a, b] 1 = .ok b := fun a b => ⟨rfl, rfl⟩
    have g3 : ∀ (a b c : Txt), pyGet [a, b, c] 0 = .ok a ∧ pyGet [a, b, c] 1 = .ok b ∧
        pyGet [a, b, c] 2 = .ok c := fun a b c => ⟨rfl, rfl, rfl⟩
    have p1 : parseNat "1".toList = .ok 1 := by decide
    have hbrace : ∀ (s : Spi1d K) (rest : List Txt) (c : Txt), c = ['{'] ∨ c = ['}'] →
        spi1dLoop s (c :: rest) = spi1dLoop s rest := by
      intro s rest c hc
      rw [spi1dLoop]
      have hw : words c = [c] := by rcases hc with rfl | rfl <;> decide
      have hg : pyGet [c] 0 = .ok c := rfl
      simp only [hw, hg, py_ok_bind]
      rw [if_neg (by rcases hc with rfl | rfl <;> decide),
        if_neg (by rcases hc with rfl | rfl <;> decide),
        if_neg (by rcases hc with rfl | rfl <;> decide),
        if_neg (by rcases hc with rfl | rfl <;> decide), if_pos hc]
    simp only [spi1dLines, List.cons_append, List.nil_append]
    rw [spi1dLoop]
    simp only [w1, (g _ _).1, (g _ _).2, py_ok_bind, if_true, p1, ne_eq, not_true, if_false]
    rw [spi1dLoop]
    simp only [w2, (g3 _ _ _).1, (g3 _ _ _).2.1, (g3 _ _ _).2.2, py_ok_bind, if_true, d1, if_false,
      readFlt_show6]
    rw [spi1dLoop]
    simp only [w3, (g _ _).1, (g _ _).2, py_ok_bind, if_true, d2, d3, if_false, parseNat_showNat]
    rw [spi1dLoop]
    simp only [w4, (g _ _).1, (g _ _).2, py_ok_bind, if_true, d4, d5, d6, if_false, parseNat_showNat]
    rw [hbrace _ _ _ (.inl rfl), spi1dLoop_rows h rows hr, hbrace _ _ _ (.inr rfl), spi1dLoop]
    rfl
  · intro l hl
    simp only [spi1dLines, List.cons_append, List.nil_append, List.mem_cons, List.mem_append,
      List.mem_map, List.not_mem_nil, or_false] at hl
    rcases hl with rfl | rfl | rfl | rfl | rfl | ⟨r, _, rfl⟩ | rfl
    · exact oneLine_lit _ (by decide)
    · exact (((oneLine_lit _ (by decide)).append (hsix lo).1.oneLine).append
        (oneLine_lit _ (by decide))).append (hsix hi).1.oneLine
    · exact (oneLine_lit _ (by decide)).append (hn _).1.oneLine
    · exact (oneLine_lit _ (by decide)).append (hn _).1.oneLine
    · exact oneLine_lit _ (by decide)
    · refine (OneLine.spaces 8).append (OneLine.flatten ?_)
      intro t ht
      obtain ⟨v, _, rfl⟩ := List.mem_map.mp ht
      exact OneLine.cons (by decide) (h.word v).1.oneLine
    · exact oneLine_lit _ (by decide)

/-- C53, as far as it holds: a written table of `n` rows comes back with its row count, the
number of columns written (at most three, or fewer if asked for), the samples as their
texts are read, and the range rounded to six decimals.  Missing: exact samples and range,
which the texts need not hold (`C53_false`). -/
theorem C53_rounded_partial {fmt : Flt K → Txt} {back : Flt K → Flt K} (h : Spec.NumText fmt back)
    (lo hi : Flt K) {n c k : ℕ} (V : Fin n → Fin c → Flt K) (hk : 0 < k) (hkc : k ≤ c) (hk3 : k ≤ 3) :
    ∃ t lo' hi', writeSpi1d fmt lo hi (Spec.rowMajor V) n c k = .ok t ∧
      Spec.Near6 lo lo' ∧ Spec.Near6 hi hi' ∧
      spi1dParse t = .ok ⟨n, k, Spec.rowMajor fun i (j : Fin k) => back (V i (j.castLE hkc)),
        lo', hi'⟩ := by
  have hmin : min (min 3 k) c = k := by omega
  refine ⟨_, _, _, writeSpi1d_eq fmt lo hi _ n c k
    (List.ofFn fun i => List.ofFn fun j : Fin k => V i (j.castLE hkc)) ?_, back6_near lo, back6_near hi, ?_⟩
  · rw [hmin]
    apply range_mapM_ofFn
    intro i
    apply range_mapM_ofFn
    intro j
    have := rowMajor_get V i j i.2 (by omega)
    rw [show (i : ℕ) * c + j = j + i * c from Nat.add_comm _ _, this]
    rfl
  · rw [spi1dParse_lines h, hmin]
    · have e : (List.ofFn fun i => List.ofFn fun j : Fin k => V i (j.castLE hkc)).flatten.map back
          = Spec.rowMajor fun i (j : Fin k) => back (V i (j.castLE hkc)) := by
        unfold Spec.rowMajor
        rw [List.map_flatten, List.map_ofFn]
        congr 1
        refine congrArg List.ofFn ?_
        funext i
        simp only [Function.comp, List.map_ofFn]
        rfl
      rw [e]
    · intro r hr
      obtain ⟨i, rfl⟩ := (List.mem_ofFn' _ _).mp hr
      simp only [ne_eq, List.ofFn_eq_nil_iff]
      omega

/-- C53, as far as it holds: samples whose texts are read exactly, over a range of at most
six decimals, come back exactly, and the nodes read from the file follow the polyline
through the samples over the range. -/
theorem C53_exact_partial (A : Arith K) (hA : A.Exact) (compat : ℕ) {fmt : Flt K → Txt}
    {back : Flt K → Flt K} (h : Spec.NumText fmt back) {m c : ℕ} (hc : c = 0 ∨ c = 2)
    (V : Fin (m + 2) → Fin (c + 1) → K) (hV : ∀ i j, back (.fin (V i j)) = .fin (V i j))
    {lo hi : K} (hlo : Spec.Six lo) (hhi : Spec.Six hi) (hlt : lo < hi) :
    ∃ t ns, writeSpi1d fmt (.fin lo) (.fin hi) (Spec.rowMajor fun i j => .fin (V i j)) (m + 2)
        (c + 1) (c + 1) = .ok t ∧
      spi1dParse t = .ok ⟨m + 2, c + 1, Spec.rowMajor fun i j => .fin (V i j), .fin lo, .fin hi⟩ ∧
      readSpi1d t = .ok ns ∧
      ∀ pairs : List ((Fin 3 → K) × (Fin 3 → K)),
        (∀ p ∈ pairs, ∀ i : Fin 3,
          Spec.OnCurve lo hi (fun k => V k (Spec.column c i)) (p.1 i) (p.2 i)) →
        processList A compat ns (pixelValues (pairs.map Prod.fst)) 3
          = .ok (pixelValues (pairs.map Prod.snd)) := by
  obtain ⟨t, lo', hi', h1, h2, h3, h4⟩ := C53_rounded_partial h (.fin lo) (.fin hi)
    (fun i j => .fin (V i j)) (Nat.succ_pos c) le_rfl (by omega)
  obtain ⟨ns, e, hns⟩ := spi1dForward_curve A hA compat hc V hlt
  have six : ∀ {x : K} {y : Flt K}, Spec.Six x → Spec.Near6 (.fin x) y → y = .fin x := by
    intro x y hx hy
    cases y with
    | fin y => rw [hy.2 hx]
    | inf _ => exact hy.elim
    | nan => exact hy.elim
  rw [six hlo h2, six hhi h3] at h4
  have hs : (fun i (j : Fin (c + 1)) => back (.fin (V i (j.castLE le_rfl))))
      = fun i j => Flt.fin (V i j) := by
    funext i j
    exact hV i j
  rw [hs] at h4
  refine ⟨t, ns, h1, h4, ?_, hns⟩
  unfold readSpi1d
  rw [h4, py_ok_bind]
  exact e

/-- A table of two columns over [-1, 3/2], written with Python's float texts. -/
example : ∃ t ns, writeSpi1d (fun x => str12 (.ofFlt x)) (.fin (-1)) (.fin (3 / 2))
      (Spec.rowMajor fun (i : Fin 3) (_ : Fin 1) => Flt.fin ((i : ℕ) / 4 : ℚ)) 3 1 1 = .ok t ∧
    readSpi1d t = .ok ns ∧
    processList ratArith 2 ns (pixelValues [![-1, 1 / 4, 3 / 2]]) 3
      = .ok (pixelValues [![0, 1 / 4, 1 / 2]]) := by
  obtain ⟨t, ns, h1, -, h2, h3⟩ := C53_exact_partial ratArith (fun _ => rfl) 2 numText_str12
    (m := 1) (c := 0) (.inl rfl) (fun i _ => ((i : ℕ) / 4 : ℚ)) (by
      intro i j
      refine dec12_digits _ ⟨(i : ℕ) * 25, -2, ?_, .inl ?_⟩
      · have := i.2; norm_num; omega
      · norm_num; ring) (lo := -1) (hi := 3 / 2) ⟨-1000000, by norm_num⟩ ⟨1500000, by norm_num⟩ (by norm_num)
  refine ⟨t, ns, h1, h2, h3 [(![-1, 1 / 4, 3 / 2], ![0, 1 / 4, 1 / 2])] ?_⟩
  intro p hp i
  rw [List.mem_singleton] at hp
  subst hp
  fin_cases i
  · exact ⟨0, by norm_num [Spec.grid], by norm_num [Spec.grid], by norm_num [Spec.grid, Spec.affine]⟩
  · exact ⟨0, by norm_num [Spec.grid], by norm_num [Spec.grid], by norm_num [Spec.grid, Spec.affine]⟩
  · exact ⟨1, by norm_num [Spec.grid], by norm_num [Spec.grid], by norm_num [Spec.grid, Spec.affine]⟩

/-- C53 is false: the end 1/10⁷ of a range is written as `0.000000` and comes back as 0,
and the sample 1 + 1/10¹² comes back as 1. -/
theorem C53_false : ∃ (lo hi : Flt ℚ) (data : List (Flt ℚ)) (t : Txt) (s : Spi1d ℚ),
    writeSpi1d (fun x => str12 (.ofFlt x)) lo hi data 1 1 1 = .ok t ∧ spi1dParse t = .ok s ∧
    s.lo ≠ lo ∧ s.samples ≠ data := by
  have h1 := writeSpi1d_eq (fun x => str12 (.ofFlt x)) (.fin (1 / 10 ^ 7)) (.fin 1)
    [.fin (1 + 1 / 10 ^ 12 : ℚ)] 1 1 1 [[.fin (1 + 1 / 10 ^ 12)]] rfl
  have h2 := spi1dParse_lines (numText_str12 (K := ℚ)) (.fin (1 / 10 ^ 7)) (.fin 1)
    [[.fin (1 + 1 / 10 ^ 12)]] (by simp) 1 1
  refine ⟨_, _, _, _, _, h1, h2, ?_, ?_⟩
  · show back6 (.fin (1 / 10 ^ 7)) ≠ .fin (1 / 10 ^ 7)
    decide +kernel
  · have e : (dec12 (SFlt.ofFlt (.fin (1 + 1 / 10 ^ 12 : ℚ)))).toFlt = .fin 1 := by
      decide +kernel
    show [(dec12 (SFlt.ofFlt (.fin (1 + 1 / 10 ^ 12 : ℚ)))).toFlt] ≠ _
    rw [e]
    decide +kernel

/-! ### C54 -/

/-- A LUT3D node read or built at half depth returns, at lattice points, the colours of its
table. -/
theorem lut3d_out (A : Arith K) (hA : A.Exact) (compat : ℕ) {m : ℕ} (hm : 0 < m) (b : Base K)
    (st : AVal) (hst : st = .str "trilinear" ∨ st = .str "tetrahedral") (a : Arr K)
    (h : PlainLut3 b float16 st a)
    (V : Fin (m + 1) → Fin (m + 1) → Fin (m + 1) → Fin 3 → K) (hT : Table3D a V)
    (points : List (Fin (m + 1) × Fin (m + 1) × Fin (m + 1))) :
    (Node.leaf .lut3d b).outOf A compat 3 (pixelValues (points.map fun p =>
        ![((p.1 : ℕ) : K) / m, ((p.2.1 : ℕ) : K) / m, ((p.2.2 : ℕ) : K) / m]))
      = .ok (pixelValues (points.map fun p => V p.1 p.2.1 p.2.2)) := by
  have hF : ∃ F : Flt K → Flt K → Flt K → Fin 3 → K,
      ((st = .str "trilinear" ∧ ∀ r g bl rest,
        a.lookup3DTrilinear (r :: g :: bl :: rest) = .ok (Spec.fins (F r g bl))) ∨
      (st = .str "tetrahedral" ∧ ∀ r g bl rest,
        a.lookup3DTetrahedral (r :: g :: bl :: rest) = .ok (Spec.fins (F r g bl)))) ∧
      ∀ i j k : Fin (m + 1), F (.fin ((i : ℕ) / m)) (.fin ((j : ℕ) / m)) (.fin ((k : ℕ) / m))
        = V i j k := by
    have inj : ∀ u v : Fin 3 → K, Spec.fins u = Spec.fins v → u = v := by
      intro u v e
      have := List.ofFn_injective e
      funext i
      exact Flt.fin.inj (congrFun this i)
    rcases hst with rfl | rfl
    · refine ⟨fun r g bl ch => axL m (Spec.unit r * m) fun i => axL m (Spec.unit g * m) fun j =>
        axL m (Spec.unit bl * m) fun k => V i j k ch, .inl ⟨rfl, fun r g bl rest =>
          trilinear_table hT r g bl rest⟩, fun i j k => ?_⟩
      have := (C21_lattice hm a V hT i j k []).1
      rw [trilinear_table hT] at this
      exact inj _ _ (Except.ok.inj this)
    · refine ⟨_, .inr ⟨rfl, fun r g bl rest =>
          tetrahedral_table hT r g bl rest _ _ _ rfl rfl rfl⟩, fun i j k => ?_⟩
      have := (C21_lattice hm a V hT i j k []).2
      rw [tetrahedral_table hT _ _ _ _ _ _ _ rfl rfl rfl] at this
      exact inj _ _ (Except.ok.inj this)
  obtain ⟨F, hF, hV⟩ := hF
  rw [outOf_leaf]
  obtain ⟨res, e, ho⟩ := C22_node A hA b float16 st a h F hF 3
    (points.map fun p => ⟨.fin (((p.1 : ℕ) : K) / m), .fin (((p.2.1 : ℕ) : K) / m),
      .fin (((p.2.2 : ℕ) : K) / m), []⟩) (by omega) (by
      intro p hp
      obtain ⟨q, _, rfl⟩ := List.mem_map.mp hp
      rfl)
  have hin : pixelValues (points.map fun p =>
        ![((p.1 : ℕ) : K) / m, ((p.2.1 : ℕ) : K) / m, ((p.2.2 : ℕ) : K) / m])
      = ((points.map fun p => (⟨.fin (((p.1 : ℕ) : K) / m), .fin (((p.2.1 : ℕ) : K) / m),
      .fin (((p.2.2 : ℕ) : K) / m), []⟩ : Spec.Pixel K)).map Spec.Pixel.toList).flatten := by
    rw [pixelValues, List.flatMap_def, List.map_map, List.map_map]
    rfl
  rw [hin]
  have hl : leafProcess A compat .lut3d b ((points.map fun p =>
      (⟨.fin (((p.1 : ℕ) : K) / m), .fin (((p.2.1 : ℕ) : K) / m),
      .fin (((p.2.2 : ℕ) : K) / m), []⟩ : Spec.Pixel K)).map Spec.Pixel.toList).flatten 3 = .ok res := e
  rw [hl, py_ok_bind, ho, pixelValues, List.flatMap_def, List.map_map, List.map_map]
  congr 2
  apply List.map_congr_left
  intro p _
  have hconv : ∀ x : K, Spec.convert (some float16) none (.fin x) = .fin x := by
    intro x
    show Flt.fin (x / Spec.fullScale (some float16) * Spec.fullScale none) = .fin x
    rw [show (Spec.fullScale (some float16) : K) = 1 from rfl,
      show (Spec.fullScale none : K) = 1 from rfl]
    simp
  simp only [Function.comp, hconv, hV, List.append_nil]

/-- The same as a list of one node. -/
theorem lut3d_lattice (A : Arith K) (hA : A.Exact) (compat : ℕ) {m : ℕ} (hm : 0 < m) (b : Base K)
    (st : AVal) (hst : st = .str "trilinear" ∨ st = .str "tetrahedral") (a : Arr K)
    (h : PlainLut3 b float16 st a) (hb : b.attrs.get? "bypass" = none)
    (V : Fin (m + 1) → Fin (m + 1) → Fin (m + 1) → Fin 3 → K) (hT : Table3D a V)
    (points : List (Fin (m + 1) × Fin (m + 1) × Fin (m + 1))) :
    processList A compat [.leaf .lut3d b] (pixelValues (points.map fun p =>
        ![((p.1 : ℕ) : K) / m, ((p.2.1 : ℕ) : K) / m, ((p.2.2 : ℕ) : K) / m])) 3
      = .ok (pixelValues (points.map fun p => V p.1 p.2.1 p.2.2)) := by
  have hb' : (Node.leaf Kind.lut3d b : Node K).attr "bypass" = none := hb
  rw [processList_one A hA compat 3 _ hb']
  exact lut3d_out A hA compat hm b st hst a h V hT points

/-- The line of a colour. -/
def spi3dRow (fmt : Flt K → Txt) (r g b : ℕ) (v : List (Flt K)) : Txt :=
  joinWith [' '] [showNat r, showNat g, showNat b] ++ [' '] ++ joinWith [' '] (v.map fmt)

theorem joinWith_append (a b : List Txt) (ha : a ≠ []) (hb : b ≠ []) :
    joinWith [' '] (a ++ b) = joinWith [' '] a ++ [' '] ++ joinWith [' '] b := by
  induction a with
  | nil => exact absurd rfl ha
  | cons x a ih =>
    cases a with
    | nil =>
      obtain ⟨y, b, rfl⟩ := List.exists_cons_of_ne_nil hb
      simp [joinWith]
    | cons y a =>
      have := ih (by simp)
      rw [List.cons_append] at this ⊢
      rw [List.cons_append]
      show x ++ [' '] ++ joinWith [' '] (y :: (a ++ b)) = x ++ [' '] ++ joinWith [' '] (y :: a) ++ [' '] ++ _
      rw [this]
      simp

theorem readFlt_showNat (n : ℕ) : readFlt (K := K) (showNat n) = .ok (.fin n) := by
  have := parseFloat_showInt (K := K) (n : ℤ)
  rw [showInt_eq] at this
  have hn : ¬ ((n : ℤ) < 0) := by omega
  simp only [hn, decide_false, signTxt, Bool.false_eq_true, if_false, List.nil_append,
    Int.natAbs_natCast] at this
  unfold readFlt
  rw [this]
  simp [SFlt.toFlt]

theorem spi3dRow_read {fmt : Flt K → Txt} {back : Flt K → Flt K} (h : Spec.NumText fmt back)
    (r g b : ℕ) (v : List (Flt K)) (hv : v ≠ []) :
    (do let vs ← (words (spi3dRow fmt r g b v)).mapM (readFlt (K := K)); pure (vs.drop 3) : Py _)
      = .ok (v.map back) := by
  have e : spi3dRow fmt r g b v = joinWith [' '] ([showNat r, showNat g, showNat b] ++ v.map fmt) := by
    rw [joinWith_append _ _ (by simp) (by simpa using hv)]; rfl
  rw [e, words_joined]
  · simp only [List.cons_append, List.nil_append, py_mapM_cons, readFlt_showNat, py_ok_bind, h.mapM]
    rfl
  · intro w hw
    rcases List.mem_append.mp hw with hw | hw
    · simp only [List.mem_cons, List.not_mem_nil, or_false] at hw
      rcases hw with rfl | rfl | rfl <;> exact ⟨(isDig_showNat _).noSpace, showNat_ne _⟩
    · obtain ⟨x, _, rfl⟩ := List.mem_map.mp hw
      exact h.word x

theorem nested_get {a b c : ℕ} (V : Fin a → Fin b → Fin c → Fin 3 → Flt K) (i : Fin a) (j : Fin b)
    (k : Fin c) : (do
      let plane ← pyGet (Spec.nested V) i
      let row ← pyGet plane j
      pyGet row k) = .ok (List.ofFn (V i j k)) := by
  have hg : ∀ {α : Type} {n : ℕ} (f : Fin n → α) (i : Fin n), pyGet (List.ofFn f) i = .ok (f i) := by
    intro α n f i
    unfold pyGet
    simp
  unfold Spec.nested
  rw [hg, py_ok_bind, hg, py_ok_bind, hg]

/-- The lines of the colours, in file order. -/
def spi3dRows (fmt : Flt K → Txt) {a b c : ℕ} (V : Fin a → Fin b → Fin c → Fin 3 → Flt K) : List Txt :=
  (List.ofFn fun i : Fin a => (List.ofFn fun j : Fin b => List.ofFn fun k : Fin c =>
    spi3dRow fmt i j k (List.ofFn (V i j k))).flatten).flatten

theorem unlines_flatten (ls : List (List Txt)) : unlines ls.flatten = (ls.map unlines).flatten := by
  induction ls with
  | nil => rfl
  | cons l ls ih => rw [List.flatten_cons, unlines_append, ih]; rfl

theorem writeSpi3d_eq (fmt : Flt K → Txt) {a b c : ℕ} (V : Fin a → Fin b → Fin c → Fin 3 → Flt K) :
    writeSpi3d fmt (Spec.nested V) (a, b, c) = .ok (unlines ("SPILUT 1.0".toList :: "3 3".toList ::
      joinWith [' '] ([a, b, c].map showNat) :: spi3dRows fmt V)) := by
  have hm : (List.range a).mapM (fun r => (List.range b).mapM fun g => (List.range c).mapM fun bl => do
      let plane ← pyGet (Spec.nested V) r
      let row ← pyGet plane g
      let v ← pyGet row bl
      pure (spi3dLine fmt r g bl v))
      = .ok (List.ofFn fun i : Fin a => List.ofFn fun j : Fin b => List.ofFn fun k : Fin c =>
        spi3dRow fmt i j k (List.ofFn (V i j k)) ++ ['\n']) := by
    apply range_mapM_ofFn
    intro i
    apply range_mapM_ofFn
    intro j
    apply range_mapM_ofFn
    intro k
    have := nested_get V i j k
    obtain ⟨p, h1, this⟩ := py_bind_eq_ok.mp this
    obtain ⟨r, h2, this⟩ := py_bind_eq_ok.mp this
    rw [h1, py_ok_bind, h2, py_ok_bind, this]
    rfl
  unfold writeSpi3d
  rw [hm, py_ok_bind, py_pure]
  congr 1
  have e1 : "SPILUT 1.0\n3 3\n".toList = "SPILUT 1.0".toList ++ '\n' :: ("3 3".toList ++ ['\n']) := rfl
  have e2 : unlines (spi3dRows fmt V) = ((List.ofFn fun i : Fin a => List.ofFn fun j : Fin b =>
      List.ofFn fun k : Fin c => spi3dRow fmt i j k (List.ofFn (V i j k)) ++ ['\n']).map
        fun p => (p.map List.flatten).flatten).flatten := by
    rw [spi3dRows, unlines_flatten, List.map_ofFn, List.map_ofFn]
    congr 2
    funext i
    simp only [Function.comp]
    rw [unlines_flatten, List.map_ofFn, List.map_ofFn]
    congr 2
    funext j
    simp only [Function.comp, unlines, List.map_ofFn]
    rfl
  rw [e1, ← e2]
  simp only [unlines, List.map_cons, List.flatten_cons, List.append_assoc, List.cons_append,
    List.nil_append, List.map_nil]

theorem spi3d_lines_one {fmt : Flt K → Txt} {back : Flt K → Flt K} (h : Spec.NumText fmt back)
    {a b c : ℕ} (V : Fin a → Fin b → Fin c → Fin 3 → Flt K) (l : Txt)
    (hl : l ∈ "SPILUT 1.0".toList :: "3 3".toList ::
      joinWith [' '] ([a, b, c].map showNat) :: spi3dRows fmt V) : OneLine l := by
  rcases List.mem_cons.mp hl with rfl | hl
  · exact oneLine_lit _ (by decide)
  rcases List.mem_cons.mp hl with rfl | hl
  · exact oneLine_lit _ (by decide)
  rcases List.mem_cons.mp hl with rfl | hl
  · refine OneLine.join fun t ht => ?_
    obtain ⟨n, _, rfl⟩ := List.mem_map.mp ht
    exact (isDig_showNat n).noSpace.oneLine
  · obtain ⟨p, hp, hl⟩ := List.mem_flatten.mp hl
    obtain ⟨i, rfl⟩ := (List.mem_ofFn' _ _).mp hp
    obtain ⟨q, hq, hl⟩ := List.mem_flatten.mp hl
    obtain ⟨j, rfl⟩ := (List.mem_ofFn' _ _).mp hq
    obtain ⟨k, rfl⟩ := (List.mem_ofFn' _ _).mp hl
    refine ((OneLine.join ?_).append (oneLine_lit _ (by decide))).append (OneLine.join ?_)
    · intro t ht
      simp only [List.mem_cons, List.not_mem_nil, or_false] at ht
      rcases ht with rfl | rfl | rfl <;> exact (isDig_showNat _).noSpace.oneLine
    · intro t ht
      obtain ⟨x, _, rfl⟩ := List.mem_map.mp ht
      exact (h.word x).1.oneLine

theorem mapM_flatten {α β : Type} (f : α → Py β) (ls : List (List α)) (rs : List (List β))
    (h : List.Forall₂ (fun l r => l.mapM f = .ok r) ls rs) :
    ls.flatten.mapM f = .ok rs.flatten := by
  induction h with
  | nil => rfl
  | cons h1 _ ih => rw [List.flatten_cons, List.flatten_cons, py_mapM_append, h1, py_ok_bind, ih]; rfl

theorem spi3dParse_lines {fmt : Flt K → Txt} {back : Flt K → Flt K} (h : Spec.NumText fmt back)
    {a b c : ℕ} (V : Fin a → Fin b → Fin c → Fin 3 → Flt K) :
    spi3dParse (unlines ("SPILUT 1.0".toList :: "3 3".toList ::
      joinWith [' '] ([a, b, c].map showNat) :: spi3dRows fmt V))
      = .ok ([a, b, c], Spec.cube fun i j k ch => back (V i j k ch)) := by
  have hrows : (spi3dRows fmt V).mapM (fun line => do
      let vs ← (words line).mapM (readFlt (K := K))
      pure (vs.drop 3)) = .ok (List.ofFn fun i : Fin a => (List.ofFn fun j : Fin b =>
        List.ofFn fun k : Fin c => List.ofFn fun ch => back (V i j k ch)).flatten).flatten := by
    unfold spi3dRows
    apply mapM_flatten
    rw [List.forall₂_iff_get]
    refine ⟨by simp, fun i h1 h2 => ?_⟩
    simp only [List.get_eq_getElem, List.getElem_ofFn]
    apply mapM_flatten
    rw [List.forall₂_iff_get]
    refine ⟨by simp, fun j h1 h2 => ?_⟩
    simp only [List.get_eq_getElem, List.getElem_ofFn]
    rw [py_mapM_eq_ok, List.forall₂_iff_get]
    refine ⟨by simp, fun k h1 h2 => ?_⟩
    simp only [List.get_eq_getElem, List.getElem_ofFn]
    rw [spi3dRow_read h _ _ _ _ (by simp), List.map_ofFn]
    rfl
  unfold spi3dParse
  rw [splitLines_unlines _ (spi3d_lines_one h V)]
  have w0 : words "SPILUT 1.0".toList = ["SPILUT".toList, "1.0".toList] := by decide
  have g0 : ∀ (x : Txt) (l : List Txt), pyGet (x :: l) 0 = .ok x := fun _ _ => rfl
  have g1 : ∀ (x y : Txt) (l : List Txt), pyGet (x :: y :: l) 1 = .ok y := fun _ _ _ => rfl
  have g2 : ∀ (x y z : Txt) (l : List Txt), pyGet (x :: y :: z :: l) 2 = .ok z := fun _ _ _ _ => rfl
  have r0 : readFlt (K := K) "1.0".toList = .ok (.fin 1) := by
    have : parseFloat (K := K) "1.0".toList = .ok (.fin false ((10 : ℕ) * 10 ^ (-1 : ℤ))) := rfl
    rw [readFlt, this]
    simp [SFlt.toFlt]
  have n1 : readNats "3 3".toList = .ok [3, 3] := by decide
  have n2 : readNats (joinWith [' '] ([a, b, c].map showNat)) = .ok [a, b, c] := dims_back [a, b, c]
  have t3 : spi3dThree [3, 3] = .ok true := rfl
  simp only [g0, w0, py_ok_bind, if_true, g1, r0]
  unfold spi3dTable
  simp only [g1, py_ok_bind, n1, t3, if_true, g2, n2]
  simp only [List.drop_succ_cons, List.drop_zero]
  rw [hrows, py_ok_bind, py_pure]
  congr 2
  unfold Spec.cube
  rw [List.flatten_flatten, List.map_ofFn]
  congr 2
  funext i
  simp only [Function.comp]
  rw [List.flatten_flatten, List.map_ofFn]
  rfl

/-- C54, as far as it holds: the file holds the colours in the order the table of a LUT3D
node keeps them, each as its text is read.  Missing: the exact samples, which the texts need
not hold (`C54_false`). -/
theorem C54_table_partial {fmt : Flt K → Txt} {back : Flt K → Flt K} (h : Spec.NumText fmt back)
    {a b c : ℕ} (V : Fin a → Fin b → Fin c → Fin 3 → Flt K) (interpolation : AVal) :
    ∃ t n arr, writeSpi3d fmt (Spec.nested V) (a, b, c) = .ok t ∧
      readSpi3d t false interpolation = .ok [.leaf .lut3d n] ∧ n.array = .ok arr ∧
      arr.dims = [a, b, c, 3] ∧ arr.values = Spec.cube fun i j k ch => back (V i j k ch) := by
  have hread : readSpi3d (unlines ("SPILUT 1.0".toList :: "3 3".toList ::
      joinWith [' '] ([a, b, c].map showNat) :: spi3dRows fmt V)) false interpolation
      = .ok [.leaf .lut3d (lut3dSetArray (newLut3d float16 float16 (.str "lut3d") (.str "lut3d")
          (if interpolation = .str "linear" then .str "trilinear" else interpolation))
          [a, b, c] (Spec.cube fun i j k ch => back (V i j k ch))).1] := by
    unfold readSpi3d
    rw [spi3dParse_lines h, py_ok_bind]
    rfl
  have harr : ∀ st : AVal, (lut3dSetArray (newLut3d float16 float16 (.str "lut3d") (.str "lut3d") st)
      [a, b, c] (Spec.cube fun i j k ch => back (V i j k ch))).1.array
      = .ok { dims := [a, b, c, 3], values := Spec.cube fun i j k ch => back (V i j k ch),
              integers := false, floatEncoding := "string" } := by
    intro st
    unfold lut3dSetArray newLut3d Base.setUnlessEmpty
    split <;> rfl
  exact ⟨_, _, _, writeSpi3d_eq fmt V, hread, harr _, rfl, rfl⟩

/-- C54, as far as it holds: a written cube whose samples' texts are read exactly is read
into a list that returns sample (r, g, b) at lattice point (r, g, b), with either
interpolation.  Missing: samples whose texts are not exact (`C54_false`), and tables whose
sides differ, whose lookup is wrong (C24). -/
theorem C54_lattice_partial (A : Arith K) (hA : A.Exact) (compat : ℕ) {fmt : Flt K → Txt}
    {back : Flt K → Flt K} (h : Spec.NumText fmt back) {m : ℕ} (hm : 0 < m)
    (V : Fin (m + 1) → Fin (m + 1) → Fin (m + 1) → Fin 3 → K)
    (hV : ∀ i j k ch, back (.fin (V i j k ch)) = .fin (V i j k ch))
    (interpolation : AVal) (hi : interpolation = .str "linear" ∨ interpolation = .str "trilinear" ∨
      interpolation = .str "tetrahedral") :
    ∃ t ns, writeSpi3d fmt (Spec.nested fun i j k ch => .fin (V i j k ch)) (m + 1, m + 1, m + 1)
        = .ok t ∧
      readSpi3d t false interpolation = .ok ns ∧
      ∀ points : List (Fin (m + 1) × Fin (m + 1) × Fin (m + 1)),
        processList A compat ns (pixelValues (points.map fun p =>
          ![((p.1 : ℕ) : K) / m, ((p.2.1 : ℕ) : K) / m, ((p.2.2 : ℕ) : K) / m])) 3
        = .ok (pixelValues (points.map fun p => V p.1 p.2.1 p.2.2)) := by
  have hread : readSpi3d (unlines ("SPILUT 1.0".toList :: "3 3".toList ::
      joinWith [' '] ([m + 1, m + 1, m + 1].map showNat) ::
        spi3dRows fmt fun i j k ch => .fin (V i j k ch))) false interpolation
      = .ok [.leaf .lut3d (lut3dSetArray (newLut3d float16 float16 (.str "lut3d") (.str "lut3d")
          (if interpolation = .str "linear" then .str "trilinear" else interpolation))
          [m + 1, m + 1, m + 1] (Spec.cube fun i j k ch => .fin (V i j k ch))).1] := by
    unfold readSpi3d
    rw [spi3dParse_lines h, py_ok_bind]
    simp only [hV]
    rfl
  refine ⟨_, _, writeSpi3d_eq fmt _, hread, fun points => ?_⟩
  rcases hi with rfl | rfl | rfl
  · refine lut3d_lattice A hA compat hm _ (.str "trilinear") (.inl rfl) _ ⟨rfl, rfl, rfl, rfl, rfl⟩ rfl V
      ⟨⟨[3], rfl⟩, rfl⟩ points
  · refine lut3d_lattice A hA compat hm _ (.str "trilinear") (.inl rfl) _ ⟨rfl, rfl, rfl, rfl, rfl⟩ rfl V
      ⟨⟨[3], rfl⟩, rfl⟩ points
  · refine lut3d_lattice A hA compat hm _ (.str "tetrahedral") (.inr rfl) _ ⟨rfl, rfl, rfl, rfl, rfl⟩ rfl V
      ⟨⟨[3], rfl⟩, rfl⟩ points

/-- A cube of side three holding squares. -/
example : ∃ t ns, writeSpi3d (fun x => str12 (.ofFlt x)) (Spec.nested fun (i j k : Fin 3) (ch : Fin 3) =>
      Flt.fin ((i : ℕ) * (i : ℕ) + 10 * (j : ℕ) + 100 * (k : ℕ) + (ch : ℕ) : ℚ)) (3, 3, 3) = .ok t ∧
    readSpi3d t false (.str "tetrahedral") = .ok ns ∧
    processList ratArith 2 ns (pixelValues [![1, 1 / 2, 0], ![0, 0, 1]]) 3
      = .ok (pixelValues [![14, 15, 16], ![200, 201, 202]]) := by
  obtain ⟨t, ns, h1, h2, h3⟩ := C54_lattice_partial ratArith (fun _ => rfl) 2 numText_str12
    (m := 2) (by omega) (fun i j k ch => ((i : ℕ) * (i : ℕ) + 10 * (j : ℕ) + 100 * (k : ℕ) + (ch : ℕ) : ℚ))
    (by
      intro i j k ch
      refine dec12_digits _ ⟨(i : ℕ) * (i : ℕ) + 10 * (j : ℕ) + 100 * (k : ℕ) + (ch : ℕ), 0, ?_, .inl ?_⟩
      · have h1 := i.2; have h2 := j.2; have h3 := k.2; have h4 := ch.2
        have : (i : ℕ) * (i : ℕ) ≤ 2 * 2 := Nat.mul_le_mul (by omega) (by omega)
        norm_num; omega
      · push_cast; simp) (.str "tetrahedral") (.inr (.inr rfl))
  refine ⟨t, ns, h1, h2, ?_⟩
  have := h3 [(2, 1, 0), (0, 0, 2)]
  convert this using 3
  · decide +kernel
  · decide +kernel

/-- C54 is false: the sample 1 + 1/10¹² comes back as 1. -/
theorem C54_false : ∃ (V : Fin 1 → Fin 1 → Fin 1 → Fin 3 → Flt ℚ) (t : Txt) (n : Base ℚ) (arr : Arr ℚ),
    writeSpi3d (fun x => str12 (.ofFlt x)) (Spec.nested V) (1, 1, 1) = .ok t ∧
    readSpi3d t = .ok [.leaf .lut3d n] ∧ n.array = .ok arr ∧ arr.values ≠ Spec.cube V := by
  obtain ⟨t, n, arr, h1, h2, h3, -, h4⟩ := C54_table_partial (numText_str12 (K := ℚ))
    (fun (_ _ _ : Fin 1) _ => .fin (1 + 1 / 10 ^ 12)) (.str "linear")
  refine ⟨_, t, n, arr, h1, h2, h3, ?_⟩
  rw [h4]
  have e : (dec12 (SFlt.ofFlt (.fin (1 + 1 / 10 ^ 12 : ℚ)))).toFlt = .fin 1 := by decide +kernel
  simp only [e]
  decide +kernel

end CLF
