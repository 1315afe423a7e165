import Verif.Lemmas.LeOk
import Verif.Lemmas.Read
import Verif.Lemmas.Nodes
import Verif.Props.Nodes
import Mathlib.Data.Rat.Floor

/-! # Property C143: arrays with too few or too many numbers -/

set_option linter.unusedSectionVars false

namespace CLF

variable {K : Type} [Field K] [LinearOrder K] [IsStrictOrderedRing K] [FloorRing K]

/-! ### Statement -/

/-- `a'` has the numbers of `a`, and perhaps more after them. -/
def Spec.Longer (a a' : Arr K) : Prop := ∃ extra, a' = { a with values := a.values ++ extra }

/-- The interpolation of the node, or its array, is not one that hides missing numbers: LUT1D tables
have at least one entry, and trilinear cubes lack whole colours only. -/
def Spec.Whole (k : Kind K) (b : Base K) (a : Arr K) : Prop :=
  match k with
  | .lut1d => a.dims[0]? ≠ some 0
  | .lut3d => b.styleOf "interpolation" = .str "trilinear" → 3 ∣ a.values.length
  | _ => True

/-- The node `n'` is `n` with more numbers at the end of its arrays. -/
inductive Spec.MoreNumbers : Node K → Node K → Prop
  | leaf {k : Kind K} {b b' : Base K} {a a' : Arr K} (ha : b.array = .ok a) (ha' : b'.array = .ok a')
      (hl : Spec.Longer a a') (hattrs : b'.attrs = b.attrs) (hvalues : b'.values = b.values)
      (hmaps : b'.indexMaps = b.indexMaps) (hw : Spec.Whole k b a) : Spec.MoreNumbers (.leaf k b) (.leaf k b')
  | same (n : Node K) : Spec.MoreNumbers n n
  | group {b : Base K} {ns ns' : List (Node K)} (h : List.Forall₂ Spec.MoreNumbers ns ns') :
      Spec.MoreNumbers (.group b ns) (.group b ns')
  | ref {b : Base K} {w : Bool} {ns ns' : List (Node K)} (h : List.Forall₂ Spec.MoreNumbers ns ns') :
      Spec.MoreNumbers (.ref b w ns) (.ref b w ns')

/-! ### Lookups -/

theorem pyGet_more {α : Type} (l extra : List α) (i : ℕ) : LeOk (pyGet l i) (pyGet (l ++ extra) i) := by
  intro x h
  unfold pyGet at h ⊢
  rcases hl : l[i]? with _ | y
  · rw [hl] at h; cases h
  · have hi := (List.getElem?_eq_some_iff.mp hl).1
    rw [hl] at h
    rw [List.getElem?_append_left hi, hl]
    exact h

theorem pyIdx_more {α : Type} (l extra : List α) (i : ℤ) (hi : 0 ≤ i) :
    LeOk (pyIdx l i) (pyIdx (l ++ extra) i) := by
  intro x h
  unfold pyIdx at h ⊢
  simp only [if_neg (not_lt.mpr hi)] at h ⊢
  rcases hl : l[i.toNat]? with _ | y
  · rw [hl] at h; cases h
  · have hi := (List.getElem?_eq_some_iff.mp hl).1
    rw [hl] at h
    rw [List.getElem?_append_left hi, hl]
    exact h

theorem lookup1D_more {a a' : Arr K} (h : Spec.Longer a a') (h0 : a.dims[0]? ≠ some 0) (i : ℤ) (ch : ℕ) :
    LeOk (a.lookup1D i ch) (a'.lookup1D i ch) := by
  obtain ⟨extra, rfl⟩ := h
  unfold Arr.lookup1D
  simp only
  intro x hx
  obtain ⟨d0, h1, hx⟩ := py_bind_eq_ok.mp hx
  obtain ⟨d1, h2, hx⟩ := py_bind_eq_ok.mp hx
  have hd : 0 < d0 := by
    rcases Nat.eq_zero_or_pos d0 with rfl | h
    · unfold pyGet at h1
      rcases hg : a.dims[0]? with _ | y
      · rw [hg] at h1; cases h1
      · rw [hg] at h1 h0
        cases h1
        exact absurd rfl h0
    · exact h
  simp only [h1, h2, py_ok_bind]
  have m0 : ∀ x y : ℤ, 0 ≤ x → 0 ≤ y → 0 ≤ x * d1 + y := fun x y hx hy =>
    add_nonneg (mul_nonneg hx (by positivity)) hy
  split at hx
  · rw [if_pos (by assumption)]
    have hc : (0 : ℤ) ≤ max 0 (min 2 (ch : ℤ)) := le_max_left _ _
    split at hx
    · rw [if_pos (by assumption)]
      exact pyIdx_more _ _ _ (by omega) x hx
    · rw [if_neg (by assumption)]
      split at hx
      · rw [if_pos (by assumption)]
        exact pyIdx_more _ _ _ (m0 _ _ (by omega) hc) x hx
      · rw [if_neg (by assumption)]
        exact pyIdx_more _ _ _ (m0 _ _ (by omega) hc) x hx
  · rw [if_neg (by assumption)]
    split at hx
    · rw [if_pos (by assumption)]
      exact pyIdx_more _ _ _ (by omega) x hx
    · rw [if_neg (by assumption)]
      split at hx
      · rw [if_pos (by assumption)]
        exact pyIdx_more _ _ _ (by omega) x hx
      · rw [if_neg (by assumption)]
        exact pyIdx_more _ _ _ (by omega) x hx

theorem lookup1DLinear_more {a a' : Arr K} (h : Spec.Longer a a') (h0 : a.dims[0]? ≠ some 0) (v : Flt K)
    (ch : ℕ) : LeOk (a.lookup1DLinear v ch) (a'.lookup1DLinear v ch) := by
  have hl := lookup1D_more h h0
  have hd : a'.dims = a.dims := by obtain ⟨extra, rfl⟩ := h; rfl
  unfold Arr.lookup1DLinear
  rw [hd]
  refine (LeOk.rfl' _).bind fun d0 => ?_
  cases v * .fin ((d0 : K) - 1) with
  | nan => exact LeOk.rfl' _
  | inf s => exact LeOk.rfl' _
  | fin x => exact (hl _ _).bind fun _ => (hl _ _).bind fun _ => LeOk.rfl' _

theorem lookup1DHalf_more {a a' : Arr K} (h : Spec.Longer a a') (h0 : a.dims[0]? ≠ some 0) (v : Flt K)
    (ch : ℕ) : LeOk (a.lookup1DHalfDomain v ch) (a'.lookup1DHalfDomain v ch) := by
  have hl := lookup1D_more h h0
  unfold Arr.lookup1DHalfDomain Arr.lookup1DHalfDomainInterpolated
  simp only [if_true]
  generalize (half.decode (half.encode v) : Flt K) = w
  cases w with
  | nan => exact hl _ _
  | inf s =>
    simp only
    split
    · exact hl _ _
    · exact hl _ _
  | fin x => exact (hl _ _).bind fun _ => (hl _ _).bind fun _ => LeOk.rfl' _

/-! ### Cubes -/

theorem slice_more {α : Type} (l extra : List α) (i j : ℕ) :
    ∃ more, pySlice (l ++ extra) i j = pySlice l i j ++ more := by
  refine ⟨(pySlice (l ++ extra) i j).drop (pySlice l i j).length, ?_⟩
  unfold pySlice
  rw [List.drop_append, List.take_append, List.drop_append]
  by_cases h : j - i ≤ (l.drop i).length
  · rw [Nat.sub_eq_zero_of_le h]
    simp
  · rw [List.take_of_length_le (by omega : (l.drop i).length ≤ j - i)]
    simp
    omega

theorem slice_three {α : Type} (l : List α) (h : 3 ∣ l.length) (i : ℕ) :
    pySlice l (i * 3) (i * 3 + 3) = [] ∨ (pySlice l (i * 3) (i * 3 + 3)).length = 3 := by
  obtain ⟨n, hn⟩ := h
  unfold pySlice
  by_cases hi : i < n
  · right
    simp only [List.length_take, List.length_drop, hn]
    omega
  · left
    rw [List.drop_of_length_le (by omega), List.take_nil]

theorem lookup3D_more {a a' : Arr K} (h : Spec.Longer a a') (i j k : ℤ) (c : List (Flt K))
    (hc : a.lookup3D i j k = .ok c) :
    ∃ more, a'.lookup3D i j k = .ok (c ++ more) ∧ (c ++ more).length ≤ 3 ∧
      (3 ∣ a.values.length → c = [] ∨ c.length = 3) := by
  obtain ⟨extra, rfl⟩ := h
  unfold Arr.lookup3D at hc ⊢
  obtain ⟨⟨d0, d1, d2⟩, h1, hc⟩ := py_bind_eq_ok.mp hc
  have h1' : Arr.dims3 { a with values := a.values ++ extra } = .ok (d0, d1, d2) := h1
  rw [h1', py_ok_bind]
  simp only at hc ⊢
  cases hc
  obtain ⟨more, hm⟩ := slice_more a.values extra
    (((max 0 (min i ((d0 : ℤ) - 1))).toNat * d0 * d1 + (max 0 (min j ((d1 : ℤ) - 1))).toNat * d1 +
      (max 0 (min k ((d2 : ℤ) - 1))).toNat) * 3)
    (((max 0 (min i ((d0 : ℤ) - 1))).toNat * d0 * d1 + (max 0 (min j ((d1 : ℤ) - 1))).toNat * d1 +
      (max 0 (min k ((d2 : ℤ) - 1))).toNat) * 3 + 3)
  refine ⟨more, by rw [← hm]; rfl, ?_, fun hd => slice_three _ hd _⟩
  rw [← hm]
  unfold pySlice
  rw [List.length_take]
  omega

/-- A corner, and the corner of the longer table. -/
def Corner (a : Arr K) (c c' : List (Flt K)) : Prop :=
  (∃ more, c' = c ++ more) ∧ c'.length ≤ 3 ∧ (3 ∣ a.values.length → c = [] ∨ c.length = 3)

theorem Corner.eq {a : Arr K} {c c' : List (Flt K)} (h : Corner a c c') (hd : 3 ∣ a.values.length)
    (hne : c ≠ []) : c' = c := by
  obtain ⟨⟨more, rfl⟩, h1, h2⟩ := h
  have := (h2 hd).resolve_left hne
  rw [List.length_append, this] at h1
  have : more = [] := List.length_eq_zero_iff.mp (by omega)
  rw [this, List.append_nil]

theorem corners_more {a a' : Arr K} (h : Spec.Longer a a') (px : List (Flt K)) (f : K × K × K)
    (cs : List (List (Flt K))) (hc : a.corners px = .ok (f, cs)) :
    ∃ c0 c1 c2 c3 c4 c5 c6 c7 d0 d1 d2 d3 d4 d5 d6 d7, cs = [c0, c1, c2, c3, c4, c5, c6, c7] ∧
      a'.corners px = .ok (f, [d0, d1, d2, d3, d4, d5, d6, d7]) ∧
      Corner a c0 d0 ∧ Corner a c1 d1 ∧ Corner a c2 d2 ∧ Corner a c3 d3 ∧ Corner a c4 d4 ∧
      Corner a c5 d5 ∧ Corner a c6 d6 ∧ Corner a c7 d7 := by
  have hd : a'.dims = a.dims := by obtain ⟨extra, rfl⟩ := h; rfl
  have look : ∀ i j k c, a.lookup3D i j k = .ok c → ∃ d, a'.lookup3D i j k = .ok d ∧ Corner a c d := by
    intro i j k c hc
    obtain ⟨more, h1, h2, h3⟩ := lookup3D_more h i j k c hc
    exact ⟨_, h1, ⟨more, rfl⟩, h2, h3⟩
  unfold Arr.corners at hc ⊢
  rw [hd]
  obtain ⟨n0, e0, hc⟩ := py_bind_eq_ok.mp hc
  obtain ⟨p0, e1, hc⟩ := py_bind_eq_ok.mp hc
  obtain ⟨n1, e2, hc⟩ := py_bind_eq_ok.mp hc
  obtain ⟨p1, e3, hc⟩ := py_bind_eq_ok.mp hc
  obtain ⟨n2, e4, hc⟩ := py_bind_eq_ok.mp hc
  obtain ⟨p2, e5, hc⟩ := py_bind_eq_ok.mp hc
  simp only [e0, e1, e2, e3, e4, e5, py_ok_bind]
  rcases hx : p0 * .fin ((n0 : K) - 1) with xr | s | _
  · rcases hy : p1 * .fin ((n1 : K) - 1) with xg | s | _
    · rcases hz : p2 * .fin ((n2 : K) - 1) with xb | s | _
      · rw [hx, hy, hz] at hc
        simp only at hc ⊢
        obtain ⟨c0, g0, hc⟩ := py_bind_eq_ok.mp hc
        obtain ⟨c1, g1, hc⟩ := py_bind_eq_ok.mp hc
        obtain ⟨c2, g2, hc⟩ := py_bind_eq_ok.mp hc
        obtain ⟨c3, g3, hc⟩ := py_bind_eq_ok.mp hc
        obtain ⟨c4, g4, hc⟩ := py_bind_eq_ok.mp hc
        obtain ⟨c5, g5, hc⟩ := py_bind_eq_ok.mp hc
        obtain ⟨c6, g6, hc⟩ := py_bind_eq_ok.mp hc
        obtain ⟨c7, g7, hc⟩ := py_bind_eq_ok.mp hc
        obtain ⟨d0, k0, q0⟩ := look _ _ _ _ g0
        obtain ⟨d1, k1, q1⟩ := look _ _ _ _ g1
        obtain ⟨d2, k2, q2⟩ := look _ _ _ _ g2
        obtain ⟨d3, k3, q3⟩ := look _ _ _ _ g3
        obtain ⟨d4, k4, q4⟩ := look _ _ _ _ g4
        obtain ⟨d5, k5, q5⟩ := look _ _ _ _ g5
        obtain ⟨d6, k6, q6⟩ := look _ _ _ _ g6
        obtain ⟨d7, k7, q7⟩ := look _ _ _ _ g7
        cases hc
        refine ⟨c0, c1, c2, c3, c4, c5, c6, c7, d0, d1, d2, d3, d4, d5, d6, d7, rfl, ?_, q0, q1, q2, q3,
          q4, q5, q6, q7⟩
        rw [hx, hy, hz]
        simp only
        rw [k0, py_ok_bind, k1, py_ok_bind, k2, py_ok_bind, k3, py_ok_bind, k4, py_ok_bind, k5, py_ok_bind,
          k6, py_ok_bind, k7, py_ok_bind]
        rfl
      all_goals (rw [hx, hy, hz] at hc; cases hc)
    all_goals (rw [hx, hy] at hc; cases hc)
  all_goals (rw [hx] at hc; cases hc)

theorem mix_nonempty {c d e : List (Flt K)} {t : Flt K} (h : mix c d t = .ok e) (he : e ≠ []) :
    c ≠ [] ∧ d ≠ [] := by
  have hc : c ≠ [] := by
    rintro rfl
    cases h
    exact he rfl
  refine ⟨hc, ?_⟩
  rintro rfl
  unfold mix at h
  rw [py_mapM_eq_ok] at h
  obtain ⟨x, c', rfl⟩ := List.exists_cons_of_ne_nil hc
  rw [List.length_cons, List.range_succ_eq_map] at h
  cases h with
  | cons h _ =>
    obtain ⟨_, -, h⟩ := py_bind_eq_ok.mp h
    obtain ⟨_, h, -⟩ := py_bind_eq_ok.mp h
    cases h

theorem trilinear_more {a a' : Arr K} (h : Spec.Longer a a') (hd : 3 ∣ a.values.length)
    (px e : List (Flt K)) (he : a.lookup3DTrilinear px = .ok e) (hne : e ≠ []) :
    a'.lookup3DTrilinear px = .ok e := by
  unfold Arr.lookup3DTrilinear at he ⊢
  obtain ⟨⟨f, cs⟩, h1, he⟩ := py_bind_eq_ok.mp he
  obtain ⟨c0, c1, c2, c3, c4, c5, c6, c7, d0, d1, d2, d3, d4, d5, d6, d7, rfl, h2, q0, q1, q2, q3, q4, q5,
    q6, q7⟩ := corners_more h px f cs h1
  simp only at he
  have he0 := he
  obtain ⟨e0, m0, he⟩ := py_bind_eq_ok.mp he
  obtain ⟨e2, m2, he⟩ := py_bind_eq_ok.mp he
  obtain ⟨e4, m4, he⟩ := py_bind_eq_ok.mp he
  obtain ⟨e6, m6, he⟩ := py_bind_eq_ok.mp he
  obtain ⟨g0, n0, he⟩ := py_bind_eq_ok.mp he
  obtain ⟨g4, n4, he⟩ := py_bind_eq_ok.mp he
  obtain ⟨hg0, hg4⟩ := mix_nonempty he hne
  obtain ⟨he0', he2'⟩ := mix_nonempty n0 hg0
  obtain ⟨he4', he6'⟩ := mix_nonempty n4 hg4
  obtain ⟨z0, z1⟩ := mix_nonempty m0 he0'
  obtain ⟨z2, z3⟩ := mix_nonempty m2 he2'
  obtain ⟨z4, z5⟩ := mix_nonempty m4 he4'
  obtain ⟨z6, z7⟩ := mix_nonempty m6 he6'
  rw [h2, py_ok_bind, q0.eq hd z0, q1.eq hd z1, q2.eq hd z2, q3.eq hd z3, q4.eq hd z4, q5.eq hd z5,
    q6.eq hd z6, q7.eq hd z7]
  exact he0

theorem blend4_more {a : Arr K} (w0 w1 w2 w3 : K) {c0 c1 c2 c3 d0 d1 d2 d3 : List (Flt K)}
    (h0 : Corner a c0 d0) (h1 : Corner a c1 d1) (h2 : Corner a c2 d2) (h3 : Corner a c3 d3) (ch : ℕ) :
    LeOk (Arr.blend4 w0 w1 w2 w3 c0 c1 c2 c3 ch) (Arr.blend4 w0 w1 w2 w3 d0 d1 d2 d3 ch) := by
  obtain ⟨⟨m0, rfl⟩, -⟩ := h0
  obtain ⟨⟨m1, rfl⟩, -⟩ := h1
  obtain ⟨⟨m2, rfl⟩, -⟩ := h2
  obtain ⟨⟨m3, rfl⟩, -⟩ := h3
  exact (pyGet_more _ _ _).bind fun _ => (pyGet_more _ _ _).bind fun _ => (pyGet_more _ _ _).bind fun _ =>
    (pyGet_more _ _ _).bind fun _ => LeOk.rfl' _

theorem tetrahedral_more {a a' : Arr K} (h : Spec.Longer a a') (px : List (Flt K)) :
    LeOk (a.lookup3DTetrahedral px) (a'.lookup3DTetrahedral px) := by
  intro e he
  unfold Arr.lookup3DTetrahedral at he ⊢
  obtain ⟨⟨⟨fx, fy, fz⟩, cs⟩, h1, he⟩ := py_bind_eq_ok.mp he
  obtain ⟨c0, c1, c2, c3, c4, c5, c6, c7, d0, d1, d2, d3, d4, d5, d6, d7, rfl, h2, q0, q1, q2, q3, q4, q5,
    q6, q7⟩ := corners_more h px _ cs h1
  rw [h2, py_ok_bind]
  simp only at he ⊢
  revert he
  have lift : ∀ p p' : ℕ → Py (Flt K), (∀ ch, LeOk (p ch) (p' ch)) →
      LeOk (do let r ← p 0; let g ← p 1; let b ← p 2; pure [r, g, b])
        (do let r ← p' 0; let g ← p' 1; let b ← p' 2; pure [r, g, b]) := fun p p' hp =>
    (hp 0).bind fun _ => (hp 1).bind fun _ => (hp 2).bind fun _ => LeOk.rfl' _
  refine lift _ _ (fun ch => ?_) e
  split_ifs <;> exact blend4_more _ _ _ _ (by assumption) (by assumption) (by assumption) (by assumption) ch

/-! ### Nodes -/

theorem pixelLoop_more (stride : ℕ) (values : List (Flt K))
    {f g : List (Flt K) → List (Flt K) → Py (List (Flt K) × List (Flt K))} (h : ∀ v p, LeOk (f v p) (g v p)) :
    LeOk (pixelLoop stride values f) (pixelLoop stride values g) := by
  unfold pixelLoop
  refine (LeOk.rfl' _).bind fun n => LeOk.bind (LeOk.foldlM _ (fun s p _ => ?_) _) fun _ => LeOk.rfl' _
  exact (h _ _).bind fun _ => LeOk.rfl' _

theorem chanLoop_more (n : ℕ) {f g : ℕ → Flt K → Py (Flt K)} (h : ∀ i x, LeOk (f i x) (g i x))
    (px : List (Flt K)) : LeOk (chanLoop n f px) (chanLoop n g px) := by
  unfold chanLoop
  exact LeOk.foldlM _ (fun s i _ => (LeOk.rfl' _).bind fun x => (h i x).bind fun _ => LeOk.rfl' _) _

theorem matrix_more (A : Arith K) {b b' : Base K} {a a' : Arr K} (ha : b.array = .ok a)
    (ha' : b'.array = .ok a') (hl : Spec.Longer a a') (hattrs : b'.attrs = b.attrs) (values : List (Flt K))
    (stride : ℕ) : LeOk (matrixProcess A b values stride) (matrixProcess A b' values stride) := by
  unfold matrixProcess
  have e : ∀ k, b'.attrE k = b.attrE k := fun k => by unfold Base.attrE; rw [hattrs]
  rw [ha, ha', e, e]
  obtain ⟨extra, rfl⟩ := hl
  refine (LeOk.rfl' _).bind fun _ => (LeOk.rfl' _).bind fun _ => ?_
  rw [py_ok_bind, py_ok_bind]
  refine pixelLoop_more _ _ fun v px => (LeOk.rfl' _).bind fun d0 => ?_
  refine LeOk.bind (LeOk.mapM _ fun i _ => (LeOk.rfl' _).bind fun d1 => ?_) fun _ => LeOk.rfl' _
  unfold matrixRow
  simp only
  refine LeOk.bind (LeOk.foldlM _ (fun s j _ => (pyGet_more _ _ _).bind fun _ => LeOk.rfl' _) _) fun acc => ?_
  split
  · exact (pyGet_more _ _ _).bind fun _ => LeOk.rfl' _
  · exact LeOk.rfl' _

theorem lut1d_more (A : Arith K) {b b' : Base K} {a a' : Arr K} (ha : b.array = .ok a)
    (ha' : b'.array = .ok a') (hl : Spec.Longer a a') (hattrs : b'.attrs = b.attrs)
    (hmaps : b'.indexMaps = b.indexMaps) (h0 : a.dims[0]? ≠ some 0) (values : List (Flt K))
    (stride : ℕ) : LeOk (lut1dProcess A b values stride) (lut1dProcess A b' values stride) := by
  unfold lut1dProcess
  have e : ∀ k, b'.attrE k = b.attrE k := fun k => by unfold Base.attrE; rw [hattrs]
  have e1 : b'.styleOf "interpolation" = b.styleOf "interpolation" := by unfold Base.styleOf; rw [hattrs]
  have e2 : b'.flag "halfDomain" = b.flag "halfDomain" := by unfold Base.flag; rw [hattrs]
  have hd : a'.dims = a.dims := by obtain ⟨extra, rfl⟩ := hl; rfl
  rw [ha, ha', e, e, e1, e2, hmaps]
  refine (LeOk.rfl' _).bind fun inD => (LeOk.rfl' _).bind fun _ => ?_
  rw [py_ok_bind, py_ok_bind]
  refine pixelLoop_more _ _ fun v px => LeOk.bind (chanLoop_more _ (fun i x => ?_) _) fun _ => LeOk.rfl' _
  rw [hd]
  refine (LeOk.rfl' _).bind fun x => ?_
  simp only
  split
  · unfold Arr.lookup1DCubic
    rw [hd]
    exact LeOk.rfl' _
  split
  · exact (lookup1DHalf_more hl h0 _ _).bind fun _ => LeOk.rfl' _
  · exact (lookup1DLinear_more hl h0 _ _).bind fun _ => LeOk.rfl' _

theorem lut3d_more (A : Arith K) {b b' : Base K} {a a' : Arr K} (ha : b.array = .ok a)
    (ha' : b'.array = .ok a') (hl : Spec.Longer a a') (hattrs : b'.attrs = b.attrs)
    (hmaps : b'.indexMaps = b.indexMaps)
    (h3 : b.styleOf "interpolation" = .str "trilinear" → 3 ∣ a.values.length) (values : List (Flt K))
    (stride : ℕ) : LeOk (lut3dProcess A b values stride) (lut3dProcess A b' values stride) := by
  unfold lut3dProcess
  have e : ∀ k, b'.attrE k = b.attrE k := fun k => by unfold Base.attrE; rw [hattrs]
  have e1 : b'.styleOf "interpolation" = b.styleOf "interpolation" := by unfold Base.styleOf; rw [hattrs]
  have hd : a'.dims = a.dims := by obtain ⟨extra, rfl⟩ := hl; rfl
  rw [ha, ha', e, e, e1, hmaps]
  refine (LeOk.rfl' _).bind fun inD => (LeOk.rfl' _).bind fun _ => ?_
  rw [py_ok_bind, py_ok_bind]
  refine pixelLoop_more _ _ fun v px => LeOk.bind ?_ fun _ => LeOk.rfl' _
  rw [hd]
  refine (LeOk.rfl' _).bind fun px => ?_
  split
  · rename_i ht
    intro r hr
    obtain ⟨c, h1, h2⟩ := py_bind_eq_ok.mp hr
    have hne : c ≠ [] := by
      rintro rfl
      cases h2
    exact py_bind_eq_ok.mpr ⟨c, trilinear_more hl (h3 ht) px c h1 hne, h2⟩
  split
  · exact (tetrahedral_more hl px).bind fun _ => LeOk.rfl' _
  · exact LeOk.rfl' _

theorem leaf_more (A : Arith K) (compat stride : ℕ) (k : Kind K) {b b' : Base K} {a a' : Arr K}
    (ha : b.array = .ok a) (ha' : b'.array = .ok a') (hl : Spec.Longer a a') (hattrs : b'.attrs = b.attrs)
    (hvalues : b'.values = b.values) (hmaps : b'.indexMaps = b.indexMaps) (hw : Spec.Whole k b a)
    (values : List (Flt K)) :
    LeOk (leafProcess A compat k b values stride) (leafProcess A compat k b' values stride) := by
  have e : ∀ k, b'.attrE k = b.attrE k := fun k => by unfold Base.attrE; rw [hattrs]
  have e1 : ∀ s, b'.styleOf s = b.styleOf s := fun s => by unfold Base.styleOf; rw [hattrs]
  cases k with
  | matrix => exact matrix_more A ha ha' hl hattrs values stride
  | lut1d => exact lut1d_more A ha ha' hl hattrs hmaps hw values stride
  | lut3d => exact lut3d_more A ha ha' hl hattrs hmaps hw values stride
  | range =>
    have : leafProcess A compat .range b' values stride = leafProcess A compat .range b values stride := by
      simp only [leafProcess, rangeProcess, e, hattrs, rangeBound, hvalues]
      rfl
    rw [this]
    exact LeOk.rfl' _
  | cdl cc v =>
    have : leafProcess A compat (.cdl cc v) b' values stride = leafProcess A compat (.cdl cc v) b values stride := by
      simp only [leafProcess, cdlProcess, e, e1]
    rw [this]
    exact LeOk.rfl' _
  | exposureContrast x y z =>
    have : leafProcess A compat (.exposureContrast x y z) b' values stride
        = leafProcess A compat (.exposureContrast x y z) b values stride := by
      simp only [leafProcess, ecProcess, e, e1]
    rw [this]
    exact LeOk.rfl' _
  | gamma ps =>
    have : leafProcess A compat (.gamma ps) b' values stride = leafProcess A compat (.gamma ps) b values stride := by
      simp only [leafProcess, gammaProcess, e, e1]
    rw [this]
    exact LeOk.rfl' _
  | log ps =>
    have : leafProcess A compat (.log ps) b' values stride = leafProcess A compat (.log ps) b values stride := by
      simp only [leafProcess, logProcess, e, e1]
    rw [this]
    exact LeOk.rfl' _
  | plain => exact LeOk.rfl' _

theorem MoreNumbers.attr {n n' : Node K} (h : Spec.MoreNumbers n n') (k : String) : n'.attr k = n.attr k := by
  cases h with
  | same => rfl
  | leaf _ _ _ hattrs => simp only [Node.attr, Node.base, hattrs]
  | group => rfl
  | ref => rfl

theorem runNodes_more (A : Arith K) (compat stride : ℕ) (inGroup : Bool) {ns ns' : List (Node K)}
    (h : List.Forall₂ Spec.MoreNumbers ns ns')
    (hp : ∀ n ∈ ns, ∀ n', Spec.MoreNumbers n n' → ∀ vs,
      LeOk (n.process A compat stride vs) (n'.process A compat stride vs)) :
    ∀ (prev : Option Depth) (s : Res K),
    LeOk (runNodes A compat stride inGroup prev ns s) (runNodes A compat stride inGroup prev ns' s) := by
  induction h with
  | nil => exact fun _ _ => LeOk.rfl' _
  | @cons n n' ns ns' hn hns ih =>
    intro prev s
    have ih := ih fun m hm => hp m (List.mem_cons_of_mem _ hm)
    rw [runNodes_cons, runNodes_cons, MoreNumbers.attr hn "bypass",
      show n'.outDepth = n.outDepth from MoreNumbers.attr hn "outBitDepth"]
    simp only
    split
    · exact (hp n (List.mem_cons_self ..) n' hn _).bind fun _ => LeOk.bind (LeOk.rfl' _) fun s' => ih _ _
    · cases hns with
      | nil =>
        cases prev with
        | none => exact LeOk.bind (LeOk.rfl' _) fun s' => ih _ _
        | some d => exact LeOk.bind (LeOk.rfl' _) fun s' => ih _ _
      | @cons m m' ms ms' hm hms =>
        have hi : m'.inDepth = m.inDepth := MoreNumbers.attr hm "inBitDepth"
        cases prev with
        | none => exact LeOk.bind (LeOk.rfl' _) fun s' => ih _ _
        | some d =>
          simp only [hi]
          split
          · exact (LeOk.rfl' _).bind fun _ => LeOk.bind (LeOk.rfl' _) fun s' => ih _ _
          · exact LeOk.bind (LeOk.rfl' _) fun s' => ih _ _

theorem process_more (A : Arith K) (compat stride : ℕ) (n : Node K) :
    ∀ n', Spec.MoreNumbers n n' → ∀ vs,
      LeOk (n.process A compat stride vs) (n'.process A compat stride vs) := by
  induction n using Node.ind with
  | hleaf k b =>
    intro n' h vs
    cases h with
    | leaf ha ha' hl hattrs hvalues hmaps hw =>
      rw [Node.process, Node.process]
      exact leaf_more A compat stride k ha ha' hl hattrs hvalues hmaps hw vs
    | same => exact LeOk.rfl' _
  | hgroup b cs ih =>
    intro n' h vs
    cases h with
    | group hc =>
      rw [Node.process, Node.process]
      exact runNodes_more A compat stride true hc ih _ _
    | same => exact LeOk.rfl' _
  | href b w ns ih =>
    intro n' h vs
    cases h with
    | ref hc =>
      rw [Node.process, Node.process]
      exact (runNodes_more A compat stride false hc ih _ _).bind fun _ => LeOk.rfl' _
    | same => exact LeOk.rfl' _
  | hmiss b w =>
    intro n' h vs
    cases h with
    | same => exact LeOk.rfl' _

/-- C143, as far as it holds: if a list whose arrays lack numbers gives an image at all, then it gives
that image whatever the missing numbers are; and numbers too many are not used.  Missing: cubes with
trilinear interpolation that lack a part of a colour (`C143_false`). -/
theorem C143_partial (A : Arith K) (compat stride : ℕ) {ns ns' : List (Node K)}
    (h : List.Forall₂ Spec.MoreNumbers ns ns') (values out : List (Flt K))
    (hout : processList A compat ns values stride = .ok out) :
    processList A compat ns' values stride = .ok out := by
  unfold processList at hout ⊢
  exact (runNodes_more A compat stride false h (fun n _ => process_more A compat stride n) none _).bind (fun _ => LeOk.rfl' _) out hout

/-- The dimensions written in an element. -/
def dimsText (d : List ℕ) (v : Option String) : Py (List ℕ) :=
  match v with
  | some v => (words v.toList).mapM parseNat
  | none => pure d

/-- The numbers written in an element. -/
def numbersText (A : Arith K) (init : Arr K) (enc text : Option String) : Py (List (SFlt K)) :=
  match text with
  | none => .error .attributeError
  | some t => (words t.toList).mapM (readToken (fun v => SFlt.ofFlt (A.f32 v.toFlt))
      (readEnc init.rawHalfs (match enc with | some v => v | none => init.floatEncoding)))

theorem arrRead_eq (A : Arith K) (init : Arr K) (x : Xml) :
    Arr.read A init x = dimsText init.dims (x.attrs.get? "dim") >>= fun dims =>
      numbersText A init (x.attrs.get? "floatEncoding") x.text >>= fun vs =>
        pure (SArr.toArr { init.toS with
          dims := dims, values := vs,
          floatEncoding := match x.attrs.get? "floatEncoding" with
            | some v => v
            | none => init.floatEncoding }) := by
  unfold Arr.read SArr.read dimsText numbersText
  cases x.attrs.get? "dim" with
  | none =>
    cases x.text with
    | none => rfl
    | some t =>
      simp only [bind_assoc, pure_bind]
      rfl
  | some d =>
    simp only [bind_assoc]
    refine bind_congr fun dims => ?_
    cases x.text with
    | none => rfl
    | some t =>
      simp only [bind_assoc, pure_bind]
      rfl

/-- The dimensions and the numbers of an array are read without comparing one with the other: whatever
dimensions one element has go with whatever numbers another has. -/
theorem C143_read (A : Arith K) (init : Arr K) (x y z : Xml) {a b : Arr K}
    (hx : Arr.read A init x = .ok a) (hy : Arr.read A init y = .ok b) (hattrs : z.attrs = x.attrs)
    (htext : z.text = y.text) (henc : y.attrs.get? "floatEncoding" = x.attrs.get? "floatEncoding") :
    ∃ c, Arr.read A init z = .ok c ∧ c.dims = a.dims ∧ c.values = b.values := by
  rw [arrRead_eq] at hx hy ⊢
  rw [hattrs, htext, ← henc]
  obtain ⟨da, h1, hx⟩ := py_bind_eq_ok.mp hx
  obtain ⟨va, h3, hx⟩ := py_bind_eq_ok.mp hx
  obtain ⟨db, h2, hy⟩ := py_bind_eq_ok.mp hy
  obtain ⟨vb, h4, hy⟩ := py_bind_eq_ok.mp hy
  cases hx
  cases hy
  rw [h1, py_ok_bind, h4]
  exact ⟨_, rfl, rfl, rfl⟩

/-! ### Witnesses -/

/-- A node with an array of the given shape and numbers. -/
def numbersNode (attrs : Dict AVal) (dims : List ℕ) (vs : List ℚ) : Base ℚ where
  attrs := attrs ++ [("inBitDepth", .str "32f"), ("outBitDepth", .str "32f")]
  elements := [.array ⟨dims, vs.map .fin, false, false, "string"⟩]

/-- The cube without change, of two points on each axis, up to its last two numbers. -/
def shortCube : List ℚ :=
  [0, 0, 0, 0, 0, 1, 0, 1, 0, 0, 1, 1, 1, 0, 0, 1, 0, 1, 1, 1, 0, 1]

/-- A LUT1D of three entries of which the last is missing: pixels in the lower half are looked up, and
the missing entry does not matter for them. -/
example : ∃ n n' : Node ℚ, Spec.MoreNumbers n n' ∧
    processList ratArith 0 [n] [.fin (1 / 4), .fin 0, .fin (1 / 2)] 3 = .ok [.fin (1 / 8), .fin 0, .fin (1 / 4)] ∧
    processList ratArith 0 [n'] [.fin (1 / 4), .fin 0, .fin (1 / 2)] 3 = .ok [.fin (1 / 8), .fin 0, .fin (1 / 4)] ∧
    processList ratArith 0 [n] [.fin (1 / 4), .fin 0, .fin 1] 3 = .error .indexError ∧
    processList ratArith 0 [n'] [.fin (1 / 4), .fin 0, .fin 1] 3 = .ok [.fin (1 / 8), .fin 0, .fin 7] := by
  have h : Spec.MoreNumbers (.leaf .lut1d (numbersNode [] [3, 1] [0, 1 / 4]))
      (.leaf .lut1d (numbersNode [] [3, 1] [0, 1 / 4, 7])) :=
    .leaf rfl rfl ⟨[.fin 7], rfl⟩ rfl rfl rfl (show ([3, 1] : List ℕ)[0]? ≠ some 0 by decide)
  have h1 : processList ratArith 0 [.leaf .lut1d (numbersNode [] [3, 1] [0, 1 / 4])]
      [.fin (1 / 4), .fin 0, .fin (1 / 2)] 3 = .ok [.fin (1 / 8), .fin 0, .fin (1 / 4)] := by decide +kernel
  exact ⟨_, _, h, h1, C143_partial ratArith 0 3 (.cons h .nil) _ _ h1, by decide +kernel, by decide +kernel⟩

/-- Where C143 fails: a cube with trilinear interpolation whose last two numbers are missing gives the
first number of the last colour for all three channels. -/
theorem C143_false : ∃ (b b' : Base ℚ) (a a' : Arr ℚ), b.array = .ok a ∧ b'.array = .ok a' ∧
    Spec.Longer a a' ∧ b'.attrs = b.attrs ∧ a.dims = [2, 2, 2, 3] ∧ a.values.length = 22 ∧
    a'.values.length = 24 ∧
    processList ratArith 0 [.leaf .lut3d b] [.fin 1, .fin 1, .fin 1] 3 = .ok [.fin 1, .fin 1, .fin 1] ∧
    processList ratArith 0 [.leaf .lut3d b'] [.fin 1, .fin 1, .fin 1] 3 = .ok [.fin 1, .fin (1 / 2), .fin (1 / 4)] :=
  ⟨numbersNode [("interpolation", .str "trilinear")] [2, 2, 2, 3] shortCube,
    numbersNode [("interpolation", .str "trilinear")] [2, 2, 2, 3] (shortCube ++ [1 / 2, 1 / 4]), _, _, rfl, rfl,
    ⟨[.fin (1 / 2), .fin (1 / 4)], rfl⟩, rfl, rfl, rfl, rfl, by decide +kernel, by decide +kernel⟩

/-- A LUT1D whose first dimension is zero uses the last number it finds. -/
theorem C143_empty_false : ∃ (b b' : Base ℚ) (a a' : Arr ℚ), b.array = .ok a ∧ b'.array = .ok a' ∧
    Spec.Longer a a' ∧ b'.attrs = b.attrs ∧ a.dims = [0, 1] ∧
    processList ratArith 0 [.leaf .lut1d b] [.fin 0, .fin 0, .fin 0] 3 = .ok [.fin 5, .fin 5, .fin 5] ∧
    processList ratArith 0 [.leaf .lut1d b'] [.fin 0, .fin 0, .fin 0] 3 = .ok [.fin 7, .fin 7, .fin 7] :=
  ⟨numbersNode [] [0, 1] [5], numbersNode [] [0, 1] [5, 7], _, _, rfl, rfl, ⟨[.fin 7], rfl⟩, rfl, rfl,
    by decide +kernel, by decide +kernel⟩

/-- The dimensions of a 3×3 matrix, and one number. -/
example : ∃ c, Arr.read ratArith ⟨[], [], false, false, "string"⟩ (.mk "Array" [("dim", "3 3")] (some "7") []) = .ok c ∧
    c.dims = [3, 3] ∧ c.values = [.fin 7] := by
  refine C143_read ratArith _ (.mk "Array" [("dim", "3 3")] (some "1") []) (.mk "Array" [("dim", "1")] (some "7") []) _
    (a := ⟨[3, 3], [.fin 1], false, false, "string"⟩) (b := ⟨[1], [.fin 7], false, false, "string"⟩) ?_ ?_ rfl rfl rfl
  · rw [arrRead_eq, show dimsText _ _ = .ok [3, 3] by decide +kernel, py_ok_bind,
      show numbersText ratArith _ _ _ = .ok [.fin false 1] by decide +kernel]
    rfl
  · rw [arrRead_eq, show dimsText _ _ = .ok [1] by decide +kernel, py_ok_bind,
      show numbersText ratArith _ _ _ = .ok [.fin false 7] by decide +kernel]
    rfl

end CLF
