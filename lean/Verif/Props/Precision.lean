import Verif.Props.Colours
import Verif.Props.Sampling
import Verif.Props.Lut1d
import Verif.Props.Lut3d
import Verif.Props.Matrix

/-! # How much nine decimals change colours -/

set_option linter.unusedSectionVars false

namespace CLF

variable {K : Type} [Field K] [LinearOrder K] [IsStrictOrderedRing K] [FloorRing K]

/-- Numbers at most `ε` apart; infinities and NaN equal. -/
def Spec.Near (ε : K) : Flt K → Flt K → Prop
  | .fin x, .fin y => |x - y| ≤ ε
  | x, y => x = y

theorem near_refl {ε : K} (h : 0 ≤ ε) (x : Flt K) : Spec.Near ε x x := by
  cases x with
  | fin v => show |v - v| ≤ ε; rw [sub_self, abs_zero]; exact h
  | _ => rfl

/-! ### Shapes of related lists -/

theorem forall₂_ofFn_inv {α β : Type} {R : α → β → Prop} {n : ℕ} {f : Fin n → α} {ys : List β}
    (h : List.Forall₂ R (List.ofFn f) ys) : ∃ g : Fin n → β, ys = List.ofFn g ∧ ∀ i, R (f i) (g i) := by
  have hl : ys.length = n := by rw [← h.length_eq, List.length_ofFn]
  subst hl
  refine ⟨fun i => ys[i], List.ofFn_getElem.symm, fun i => ?_⟩
  have := (List.forall₂_iff_get.mp h).2 i (by rw [List.length_ofFn]; exact i.2) i.2
  simpa using this

theorem forall₂_flatten_inv {α β : Type} {R : α → β → Prop} {xs : List (List α)} :
    ∀ {ys : List β}, List.Forall₂ R xs.flatten ys →
      ∃ zs, ys = zs.flatten ∧ List.Forall₂ (List.Forall₂ R) xs zs := by
  induction xs with
  | nil => intro ys h; cases h; exact ⟨[], rfl, .nil⟩
  | cons x xs ih =>
    intro ys h
    rw [List.flatten_cons] at h
    have ht := List.forall₂_take x.length h
    have hd := List.forall₂_drop x.length h
    rw [List.take_left] at ht
    rw [List.drop_left] at hd
    obtain ⟨zs, h1, h2⟩ := ih hd
    refine ⟨ys.take x.length :: zs, ?_, .cons ht h2⟩
    rw [List.flatten_cons, ← h1, List.take_append_drop]

theorem rowMajor_inv {α β : Type} {R : α → β → Prop} {n c : ℕ} {V : Fin n → Fin c → α} {ys : List β}
    (h : List.Forall₂ R (Spec.rowMajor V) ys) :
    ∃ W : Fin n → Fin c → β, ys = Spec.rowMajor W ∧ ∀ i j, R (V i j) (W i j) := by
  obtain ⟨zs, rfl, h'⟩ := forall₂_flatten_inv h
  obtain ⟨g, rfl, hg⟩ := forall₂_ofFn_inv h'
  choose W h1 h2 using fun i => forall₂_ofFn_inv (hg i)
  exact ⟨W, by unfold Spec.rowMajor; simp only [← h1], h2⟩

theorem cube_inv {α β : Type} {R : α → β → Prop} {a b c : ℕ} {V : Fin a → Fin b → Fin c → Fin 3 → α}
    {ys : List β} (h : List.Forall₂ R (Spec.cube V) ys) :
    ∃ W : Fin a → Fin b → Fin c → Fin 3 → β, ys = Spec.cube W ∧
      ∀ i j k ch, R (V i j k ch) (W i j k ch) := by
  obtain ⟨zs, rfl, h'⟩ := forall₂_flatten_inv h
  obtain ⟨g, rfl, hg⟩ := forall₂_ofFn_inv h'
  choose zs h1 h1' using fun i => forall₂_flatten_inv (hg i)
  choose g2 h2 h2' using fun i => forall₂_ofFn_inv (h1' i)
  choose W h3 h3' using fun i j => rowMajor_inv (h2' i j)
  refine ⟨W, ?_, h3'⟩
  unfold Spec.cube
  congr 1
  congr 1
  funext i
  rw [h1, h2]
  congr 2
  funext j
  exact h3 i j

/-! ### Tables after writing -/

theorem fins_of_near {ε : K} {x : K} {y : Flt K} (h : Spec.Near ε (.fin x) y) :
    ∃ w, y = .fin w ∧ |x - w| ≤ ε := by
  cases y with
  | fin w => exact ⟨w, rfl, h⟩
  | _ => cases h

theorem tableValue_near {A : Arith K} (hA : A.Exact) {x y : Flt K} (h : Spec.TableValue A none x y) :
    Spec.Near (1 / 2 / 10 ^ 9) x y := by
  obtain ⟨d, h1, -, rfl⟩ := h
  rw [hA]
  cases x with
  | fin v =>
    by_cases hv : v < 0
    · have e : SFlt.ofFlt (.fin v) = .fin true |v| := by simp [SFlt.ofFlt, hv]
      rw [e] at h1
      cases d with
      | fin s m =>
        obtain ⟨rfl, h1⟩ := h1
        show |v - -m| ≤ _
        rw [abs_of_neg hv, ← abs_neg] at h1
        rw [show v - -m = -(-v - m) by ring]
        exact h1
      | _ => cases h1
    · have e : SFlt.ofFlt (.fin v) = .fin false |v| := by simp [SFlt.ofFlt, hv]
      rw [e] at h1
      cases d with
      | fin s m =>
        obtain ⟨rfl, h1⟩ := h1
        rw [abs_of_nonneg (not_lt.mp hv)] at h1
        exact h1
      | _ => cases h1
  | inf s =>
    have : d = SFlt.ofFlt (.inf s : Flt K) := by
      revert h1
      cases s <;> (intro h1; cases d <;> first | exact h1.symm | cases h1)
    rw [this, flt_ofFlt]
    rfl
  | nan =>
    have : d = SFlt.ofFlt (.nan : Flt K) := by cases d <;> first | exact h1.symm | cases h1
    rw [this, flt_ofFlt]
    rfl

theorem sameElems_split {A : Arith K} {es es' : List (Elem K)} (h : List.Forall₂ (Spec.SameElem A) es es') :
    List.Forall₂ (Spec.SameArray A) (arraysOf es) (arraysOf es') := by
  induction h with
  | nil => exact .nil
  | @cons e e' es es' h _ ih =>
    cases e with
    | comment t x => cases h; exact ih
    | info ps => cases h; exact ih
    | array a => obtain ⟨a', rfl, h⟩ := h; exact .cons h ih
    | indexMap m => obtain ⟨m', rfl, h⟩ := h; exact ih

theorem forall₂_getLast {α β : Type} {R : α → β → Prop} {xs : List α} {ys : List β} {x : α}
    (h : List.Forall₂ R xs ys) (hx : xs.getLast? = some x) : ∃ y, ys.getLast? = some y ∧ R x y := by
  have h := List.forall₂_reverse_iff.mpr h
  rw [List.getLast?_eq_head?_reverse] at hx
  rw [List.getLast?_eq_head?_reverse]
  generalize xs.reverse = xs at h hx
  generalize ys.reverse = ys at h
  cases h with
  | nil => cases hx
  | cons h _ => cases hx; exact ⟨_, rfl, h⟩

theorem sameBase_array {A : Arith K} {b b' : Base K} {a : Arr K} (h : Spec.SameBase A b b')
    (ha : b.array = .ok a) : ∃ a', b'.array = .ok a' ∧ Spec.SameArray A a a' := by
  unfold Base.array at ha ⊢
  cases hl : (arraysOf b.elements).getLast? with
  | none => rw [hl] at ha; cases ha
  | some a0 =>
    rw [hl] at ha
    cases ha
    obtain ⟨a', h1, h2⟩ := forall₂_getLast (sameElems_split h.2.2.2) hl
    exact ⟨a', by rw [h1], h2⟩

theorem sameBase_maps {A : Arith K} {b b' : Base K} (h : Spec.SameBase A b b') (hm : b.indexMaps = []) :
    b'.indexMaps = [] := by
  have h := h.2.2.2
  unfold Base.indexMaps at hm ⊢
  generalize b.elements = es at h hm
  generalize b'.elements = es' at h
  induction h with
  | nil => rfl
  | @cons e e' es es' h _ ih =>
    cases e with
    | comment t x => cases h; exact ih hm
    | info ps => cases h; exact ih hm
    | array a => obtain ⟨a', rfl, h⟩ := h; exact ih hm
    | indexMap m => cases hm

theorem plain_values {A : Arith K} (hA : A.Exact) {a a' : Arr K} (h : Spec.SameArray A a a')
    (hr : a.rawHalfs = false) (he : a.floatEncoding = "string") :
    List.Forall₂ (Spec.Near (1 / 2 / 10 ^ 9)) a.values a'.values := by
  obtain ⟨-, -, -, -, h⟩ := h
  rw [hr, he] at h
  exact h.imp fun x y => tableValue_near hA

/-! ### Interpolation in nearby tables -/

theorem mix_near {f a b a' b' ε : K} (h0 : 0 ≤ f) (h1 : f ≤ 1) (ha : |a - a'| ≤ ε) (hb : |b - b'| ≤ ε) :
    |((1 - f) * a + f * b) - ((1 - f) * a' + f * b')| ≤ ε := by
  rw [abs_le] at *
  have e : ((1 - f) * a + f * b) - ((1 - f) * a' + f * b') = (1 - f) * (a - a') + f * (b - b') := by ring
  rw [e]
  have g : 0 ≤ 1 - f := by linarith
  have p1 := mul_le_mul_of_nonneg_left ha.1 g
  have p2 := mul_le_mul_of_nonneg_left ha.2 g
  have p3 := mul_le_mul_of_nonneg_left hb.1 h0
  have p4 := mul_le_mul_of_nonneg_left hb.2 h0
  constructor <;> nlinarith

theorem lerpRow_near {m : ℕ} {f g : Fin (m + 1) → K} {ε : K} (h : ∀ k, |f k - g k| ≤ ε) (t : K) :
    |lerpRow f t - lerpRow g t| ≤ ε :=
  mix_near (sub_nonneg.mpr (Int.floor_le t)) (by have := Int.lt_floor_add_one t; linarith) (h _) (h _)

theorem axL_near {m : ℕ} {f g : Fin (m + 1) → K} {ε : K} (h : ∀ k, |f k - g k| ≤ ε) (t : K) :
    |axL m t f - axL m t g| ≤ ε :=
  mix_near (Int.fract_nonneg t) (Int.fract_lt_one t).le (h _) (h _)

theorem tetra_near {x y z : K} {f g : (Fin 3 → Bool) → K} {ε : K} (h : ∀ e, |f e - g e| ≤ ε) :
    |Spec.tetra ![Int.fract x, Int.fract y, Int.fract z] f
        (tetraOrder (Int.fract x) (Int.fract y) (Int.fract z)) -
      Spec.tetra ![Int.fract x, Int.fract y, Int.fract z] g
        (tetraOrder (Int.fract x) (Int.fract y) (Int.fract z))| ≤ ε := by
  obtain ⟨s1, s2, s3⟩ := tetraOrder_sorted (Int.fract x) (Int.fract y) (Int.fract z)
  have := tetra_mem _ (fun e => f e - g e) _ s3
    (by intro a; fin_cases a <;> exact Int.fract_nonneg _)
    (by intro a; fin_cases a <;> exact (Int.fract_lt_one _).le) s1 s2 (-ε) ε
    fun e _ => abs_le.mp (h e)
  have e : Spec.tetra ![Int.fract x, Int.fract y, Int.fract z] (fun e => f e - g e)
      (tetraOrder (Int.fract x) (Int.fract y) (Int.fract z)) =
    Spec.tetra ![Int.fract x, Int.fract y, Int.fract z] f
        (tetraOrder (Int.fract x) (Int.fract y) (Int.fract z)) -
      Spec.tetra ![Int.fract x, Int.fract y, Int.fract z] g
        (tetraOrder (Int.fract x) (Int.fract y) (Int.fract z)) := by
    unfold Spec.tetra; ring
  rw [e] at this
  exact abs_le.mpr this

/-! ### C92 -/

theorem one_back (A : Arith K) (compat : ℕ) (load : String → Py (Option (List (Node K)))) (l : PList K)
    (hl : Spec.StorableList compat load l) (gzip : Bool) (f : File)
    (hf : l.writeFile compat false gzip = .ok f) (k : Kind K) (b : Base K)
    (hk : ∀ k', Spec.SameKind k k' → k' = k) (h1 : l.processes = [.leaf k b]) :
    ∃ l' b', readContents compat (readList A compat load false) f = .ok l' ∧
      l'.processes = [.leaf k b'] ∧ Spec.SameBase A b b' := by
  obtain ⟨l', g1, -, -, -, g2⟩ := C50_file_partial A compat load l hl gzip f hf
  rw [h1] at g2
  generalize hn : l'.processes = ns at g2
  cases g2 with
  | cons h t =>
    cases t
    cases h with
    | leaf h2 h3 =>
      cases hk _ h2
      exact ⟨l', _, g1, hn, h3⟩

theorem same_attr {A : Arith K} {b b' : Base K} (h : Spec.SameBase A b b') (k : String) :
    b'.attrs.get? k = b.attrs.get? k := sameDict_get h.1 k

theorem forall₂_flatten_map {α : Type} {R : Flt K → Flt K → Prop} {f g : α → List (Flt K)} (ps : List α)
    (h : ∀ p ∈ ps, List.Forall₂ R (f p) (g p)) :
    List.Forall₂ R (ps.map f).flatten (ps.map g).flatten := by
  induction ps with
  | nil => exact .nil
  | cons p ps ih =>
    exact List.rel_append (h p (List.mem_cons_self ..)) (ih fun q hq => h q (List.mem_cons_of_mem _ hq))

theorem mapColour_near {ε : K} (hε : 0 ≤ ε) {f g : ℕ → Flt K → Flt K}
    (h : ∀ i x, Spec.Near ε (f i x) (g i x)) (p : List (Flt K)) :
    List.Forall₂ (Spec.Near ε) (Spec.mapColour f p) (Spec.mapColour g p) := by
  unfold Spec.mapColour
  rw [List.forall₂_iff_get]
  refine ⟨by simp, fun i h1 h2 => ?_⟩
  simp only [List.get_eq_getElem, List.getElem_mapIdx]
  split
  · exact h _ _
  · exact near_refl hε _

theorem eps_nonneg : (0 : K) ≤ 1 / 2 / 10 ^ 9 := by positivity

/-- A linear LUT1D of finite values, written with nine decimals and read back, gives colours
that differ by at most `0.5e-9`, for every image. -/
theorem C92_lut1d (A : Arith K) (hA : A.Exact) (compat : ℕ)
    (load : String → Py (Option (List (Node K)))) (l : PList K) (hl : Spec.StorableList compat load l)
    (gzip : Bool) (f : File) (hf : l.writeFile compat false gzip = .ok f) (b : Base K)
    (h1 : l.processes = [.leaf .lut1d b]) (hb : b.attrs.get? "bypass" = none) (din : AVal) (a : Arr K)
    (hn : PlainLut b din a) {m c : ℕ} (V : Fin (m + 2) → Fin (c + 1) → K) (ht : Table1D a V)
    (hr : a.rawHalfs = false) (he : a.floatEncoding = "string") :
    ∃ l', readContents compat (readList A compat load false) f = .ok l' ∧
      ∀ (stride : ℕ) (pixels : List (List (Flt K))), 0 < stride → (∀ p ∈ pixels, p.length = stride) →
      ∃ out out', processList A compat l.processes pixels.flatten stride = .ok out ∧
        processList A compat l'.processes pixels.flatten stride = .ok out' ∧
        List.Forall₂ (Spec.Near (1 / 2 / 10 ^ 9)) out out' := by
  obtain ⟨l', b', g1, g2, g3⟩ := one_back A compat load l hl gzip f hf .lut1d b (fun _ h => h) h1
  refine ⟨l', g1, fun stride pixels hs hp => ?_⟩
  obtain ⟨a', ha', hsa⟩ := sameBase_array g3 hn.array
  have hn' : PlainLut b' din a' :=
    ⟨by rw [same_attr g3]; exact hn.inDepth, by rw [same_attr g3]; exact hn.outDepth,
      by rw [styleOf_twin (same_attr g3 _)]; exact hn.linear,
      by rw [flag_twin (same_attr g3 _)]; exact hn.noHalf, sameBase_maps g3 hn.noMaps, ha'⟩
  have hv := plain_values hA hsa hr he
  rw [ht.values] at hv
  obtain ⟨W0, hW0, hnear⟩ := rowMajor_inv hv
  choose W hW hd using fun i j => fins_of_near (hnear i j)
  have ht' : Table1D a' W := by
    refine ⟨?_, ?_, ht.columns⟩
    · obtain ⟨rest, hr⟩ := ht.dims
      exact ⟨rest, by rw [hsa.1, hr]⟩
    · rw [hW0]
      congr 1
      funext i j
      exact hW i j
  have lookup : ∀ (a : Arr K) (V : Fin (m + 2) → Fin (c + 1) → K), Table1D a V → ∀ i x,
      a.lookup1DLinear x i = .ok (match x with
        | .fin v => .fin (lerpRow (fun k => V k (Spec.column c i)) (v * (m + 1 : ℕ)))
        | x => x) := by
    intro a V ht i x
    obtain ⟨rest, hd⟩ := ht.dims
    obtain ⟨n1, n2⟩ := C17_nonfinite a (m + 1 + 1) _ hd i
    cases x with
    | fin v => exact ht.lookup v i
    | inf s => exact n2 (by omega) s
    | nan => exact n1
  obtain ⟨r, p1, p2⟩ := C14_node A hA b din a hn _ (lookup a V ht) stride hs pixels hp
  obtain ⟨r', q1, q2⟩ := C14_node A hA b' din a' hn' _ (lookup a' W ht') stride hs pixels hp
  refine ⟨r.out, r'.out, ?_, ?_, ?_⟩
  · rw [h1, processList_one A hA _ _ _ (show (Node.leaf .lut1d b).attr _ = _ from hb), outOf_leaf]
    show (do let r ← lut1dProcess A b pixels.flatten stride; .ok r.out : Py _) = _
    rw [p1]; rfl
  · rw [g2, processList_one A hA _ _ _ (by show b'.attrs.get? _ = _; rw [same_attr g3]; exact hb), outOf_leaf]
    show (do let r ← lut1dProcess A b' pixels.flatten stride; .ok r.out : Py _) = _
    rw [q1]; rfl
  · rw [p2, q2]
    refine forall₂_flatten_map pixels fun p _ => mapColour_near eps_nonneg (fun i x => ?_) p
    cases Spec.convert (some din) none x with
    | fin v => exact lerpRow_near (fun k => hd k _) _
    | _ => rfl

/-- The same for a LUT3D, trilinear or tetrahedral. -/
theorem C92_lut3d (A : Arith K) (hA : A.Exact) (compat : ℕ)
    (load : String → Py (Option (List (Node K)))) (l : PList K) (hl : Spec.StorableList compat load l)
    (gzip : Bool) (f : File) (hf : l.writeFile compat false gzip = .ok f) (b : Base K)
    (h1 : l.processes = [.leaf .lut3d b]) (hb : b.attrs.get? "bypass" = none) (din st : AVal) (a : Arr K)
    (hn : PlainLut3 b din st a) (hst : st = .str "trilinear" ∨ st = .str "tetrahedral") {m : ℕ}
    (V : Fin (m + 1) → Fin (m + 1) → Fin (m + 1) → Fin 3 → K) (ht : Table3D a V)
    (hr : a.rawHalfs = false) (he : a.floatEncoding = "string") :
    ∃ l', readContents compat (readList A compat load false) f = .ok l' ∧
      ∀ (stride : ℕ) (pixels : List (Spec.Pixel K)), 0 < stride →
      (∀ p ∈ pixels, p.toList.length = stride) →
      ∃ out out', processList A compat l.processes (pixels.map Spec.Pixel.toList).flatten stride = .ok out ∧
        processList A compat l'.processes (pixels.map Spec.Pixel.toList).flatten stride = .ok out' ∧
        List.Forall₂ (Spec.Near (1 / 2 / 10 ^ 9)) out out' := by
  obtain ⟨l', b', g1, g2, g3⟩ := one_back A compat load l hl gzip f hf .lut3d b (fun _ h => h) h1
  refine ⟨l', g1, fun stride pixels hs hp => ?_⟩
  obtain ⟨a', ha', hsa⟩ := sameBase_array g3 hn.array
  have hn' : PlainLut3 b' din st a' :=
    ⟨by rw [same_attr g3]; exact hn.inDepth, by rw [same_attr g3]; exact hn.outDepth,
      by rw [styleOf_twin (same_attr g3 _)]; exact hn.style, sameBase_maps g3 hn.noMaps, ha'⟩
  have hv := plain_values hA hsa hr he
  rw [ht.values] at hv
  obtain ⟨W0, hW0, hnear⟩ := cube_inv hv
  choose W hW hd using fun i j k ch => fins_of_near (hnear i j k ch)
  have ht' : Table3D a' W := by
    refine ⟨?_, ?_⟩
    · obtain ⟨rest, hr⟩ := ht.dims
      exact ⟨rest, by rw [hsa.1, hr]⟩
    · rw [hW0]
      congr 1
      funext i j k ch
      exact hW i j k ch
  have key : ∃ F F' : Flt K → Flt K → Flt K → Fin 3 → K,
      (∀ r g b ch, |F r g b ch - F' r g b ch| ≤ 1 / 2 / 10 ^ 9) ∧
      ((st = .str "trilinear" ∧ ∀ r g bl rest,
        a.lookup3DTrilinear (r :: g :: bl :: rest) = .ok (Spec.fins (F r g bl))) ∨
      (st = .str "tetrahedral" ∧ ∀ r g bl rest,
        a.lookup3DTetrahedral (r :: g :: bl :: rest) = .ok (Spec.fins (F r g bl)))) ∧
      ((st = .str "trilinear" ∧ ∀ r g bl rest,
        a'.lookup3DTrilinear (r :: g :: bl :: rest) = .ok (Spec.fins (F' r g bl))) ∨
      (st = .str "tetrahedral" ∧ ∀ r g bl rest,
        a'.lookup3DTetrahedral (r :: g :: bl :: rest) = .ok (Spec.fins (F' r g bl)))) := by
    rcases hst with h | h
    · exact ⟨_, _, fun r g b ch => axL_near (fun i => axL_near (fun j => axL_near (fun k => hd i j k ch) _) _) _,
        .inl ⟨h, fun r g bl rest => trilinear_table ht r g bl rest⟩,
        .inl ⟨h, fun r g bl rest => trilinear_table ht' r g bl rest⟩⟩
    · refine ⟨fun r g b ch => Spec.tetra ![Int.fract (Spec.unit r * (m : K)), Int.fract (Spec.unit g * (m : K)),
          Int.fract (Spec.unit b * (m : K))]
          (cellCorner V (Spec.unit r * (m : K)) (Spec.unit g * (m : K)) (Spec.unit b * (m : K)) ch) _,
        fun r g b ch => Spec.tetra ![Int.fract (Spec.unit r * (m : K)), Int.fract (Spec.unit g * (m : K)),
          Int.fract (Spec.unit b * (m : K))]
          (cellCorner W (Spec.unit r * (m : K)) (Spec.unit g * (m : K)) (Spec.unit b * (m : K)) ch) _,
        fun r g b ch => tetra_near fun e => hd _ _ _ ch,
        .inr ⟨h, fun r g bl rest => tetrahedral_table ht r g bl rest _ _ _ rfl rfl rfl⟩,
        .inr ⟨h, fun r g bl rest => tetrahedral_table ht' r g bl rest _ _ _ rfl rfl rfl⟩⟩
  obtain ⟨F, F', hFF, hF, hF'⟩ := key
  obtain ⟨r, p1, p2⟩ := C22_node A hA b din st a hn F hF stride pixels hs hp
  obtain ⟨r', q1, q2⟩ := C22_node A hA b' din st a' hn' F' hF' stride pixels hs hp
  refine ⟨r.out, r'.out, ?_, ?_, ?_⟩
  · rw [h1, processList_one A hA _ _ _ (show (Node.leaf .lut3d b).attr _ = _ from hb), outOf_leaf]
    show (do let r ← lut3dProcess A b _ stride; .ok r.out : Py _) = _
    rw [p1]; rfl
  · rw [g2, processList_one A hA _ _ _ (by show b'.attrs.get? _ = _; rw [same_attr g3]; exact hb), outOf_leaf]
    show (do let r ← lut3dProcess A b' _ stride; .ok r.out : Py _) = _
    rw [q1]; rfl
  · rw [p2, q2]
    refine forall₂_flatten_map pixels fun p _ => List.rel_append ?_ (List.forall₂_same.mpr fun x _ =>
      near_refl eps_nonneg x)
    unfold Spec.fins
    rw [List.forall₂_iff_get]
    refine ⟨by simp, fun i h1 h2 => ?_⟩
    simp only [List.get_eq_getElem, List.getElem_ofFn]
    exact hFF _ _ _ _

/-- The same for a square matrix: a channel changes by at most `0.5e-9` times the sum of the
magnitudes of the pixel's channels. -/
theorem C92_matrix (A : Arith K) (hA : A.Exact) (compat : ℕ)
    (load : String → Py (Option (List (Node K)))) (l : PList K) (hl : Spec.StorableList compat load l)
    (gzip : Bool) (f : File) (hf : l.writeFile compat false gzip = .ok f) (b : Base K)
    (h1 : l.processes = [.leaf .matrix b]) (hb : b.attrs.get? "bypass" = none) {n : ℕ}
    (M : Matrix (Fin n) (Fin n) K) (a : Arr K) (rest : List ℕ)
    (hin : (b.attrs.get? "inBitDepth").isSome) (hout : (b.attrs.get? "outBitDepth").isSome)
    (ha : b.array = .ok a) (hd : a.dims = n :: n :: rest)
    (hm : a.values = Spec.rowMajor fun i j => .fin (M i j))
    (hr : a.rawHalfs = false) (he : a.floatEncoding = "string") :
    ∃ l', readContents compat (readList A compat load false) f = .ok l' ∧
      ∀ (stride : ℕ) (pixels : List ((Fin n → K) × List (Flt K))), 0 < stride →
      (∀ p ∈ pixels, n + p.2.length = stride) →
      ∃ out out' : List ((Fin n → K) × List (Flt K)),
        processList A compat l.processes (Spec.image pixels) stride = .ok (Spec.image out) ∧
        processList A compat l'.processes (Spec.image pixels) stride = .ok (Spec.image out') ∧
        out.length = pixels.length ∧ out'.length = pixels.length ∧
        ∀ (q : ℕ) (p o o' : (Fin n → K) × List (Flt K)), pixels[q]? = some p → out[q]? = some o →
          out'[q]? = some o' → o'.2 = o.2 ∧ ∀ i, |o.1 i - o'.1 i| ≤ 1 / 2 / 10 ^ 9 * ∑ j, |p.1 j| := by
  obtain ⟨l', b', g1, g2, g3⟩ := one_back A compat load l hl gzip f hf .matrix b (fun _ h => h) h1
  refine ⟨l', g1, fun stride pixels hs hp => ?_⟩
  obtain ⟨a', ha', hsa⟩ := sameBase_array g3 ha
  have hv := plain_values hA hsa hr he
  rw [hm] at hv
  obtain ⟨W0, hW0, hnear⟩ := rowMajor_inv hv
  choose W hW hdist using fun i j => fins_of_near (hnear i j)
  have hn : MatrixNode b M := ⟨hin, hout, a, rest, ha, hd, hm⟩
  have hn' : MatrixNode b' (W : Matrix (Fin n) (Fin n) K) := by
    refine ⟨by rw [same_attr g3]; exact hin, by rw [same_attr g3]; exact hout, a', rest, ha',
      by rw [hsa.1, hd], ?_⟩
    rw [hW0]
    congr 1
    funext i j
    exact hW i j
  have p1 := C10_linear A hA b M hn stride hs pixels hp
  have q1 := C10_linear A hA b' W hn' stride hs pixels hp
  refine ⟨pixels.map fun p => (M.mulVec p.1, p.2), pixels.map fun p => (Matrix.mulVec W p.1, p.2),
    ?_, ?_, by simp, by simp, ?_⟩
  · rw [h1, processList_one A hA _ _ _ (show (Node.leaf .matrix b).attr _ = _ from hb), outOf_leaf]
    show (do let r ← matrixProcess A b _ stride; .ok r.out : Py _) = _
    rw [p1]; rfl
  · rw [g2, processList_one A hA _ _ _ (by show b'.attrs.get? _ = _; rw [same_attr g3]; exact hb), outOf_leaf]
    show (do let r ← matrixProcess A b' _ stride; .ok r.out : Py _) = _
    rw [q1]; rfl
  · intro q p o o' e1 e2 e3
    rw [List.getElem?_map, e1] at e2 e3
    cases e2; cases e3
    refine ⟨rfl, fun i => ?_⟩
    show |∑ j, M i j * p.1 j - ∑ j, W i j * p.1 j| ≤ _
    rw [← Finset.sum_sub_distrib, Finset.mul_sum]
    refine (Finset.abs_sum_le_sum_abs _ _).trans (Finset.sum_le_sum fun j _ => ?_)
    rw [← sub_mul, abs_mul]
    exact mul_le_mul_of_nonneg_right (hdist i j) (abs_nonneg _)

/-- A node that holds the table `a`. -/
def lutBase (a : Arr ℚ) : Base ℚ where
  attrs := [("inBitDepth", .str "16f"), ("outBitDepth", .str "16f"), ("id", .str ""), ("name", .str ""),
    ("interpolation", .str "trilinear")]
  elements := [.array a]

/-- A list with one LUT, of one class or the other. -/
def oneLut (k : Kind ℚ) (a : Arr ℚ) : PList ℚ where
  processes := [.leaf k (lutBase a)]

theorem oneLut_writes (k : Kind ℚ) (hk : k = .lut1d ∨ k = .lut3d) (a : Arr ℚ) (c : ℕ)
    (hr : a.rawHalfs = false) (he : a.floatEncoding = "string") (hi : a.integers = false)
    (hc : Spec.rowLength a.dims = some c) (h0 : 0 < c) (hd : c ∣ a.values.length) (compat : ℕ)
    (load : String → Py (Option (List (Node ℚ)))) :
    Spec.StorableList compat load (oneLut k a) ∧
      ∃ f, (oneLut k a).writeFile compat false false = .ok f := by
  constructor
  · refine ⟨List.nodup_nil, by simp [oneLut], rfl, by simp [oneLut], ?_⟩
    simp only [oneLut, List.mem_cons, List.not_mem_nil, or_false, forall_eq]
    refine .leaf ?_ ?_ (.inl rfl) (.inl rfl) ?_
    · rcases hk with rfl | rfl <;> trivial
    · rcases hk with rfl | rfl <;> simp [Spec.AttrsOk, Spec.keysOf, Spec.commonKeys, lutBase]
    · show ∀ e ∈ [Elem.array a], _
      simp only [List.mem_cons, List.not_mem_nil, or_false, forall_eq]
      have ok : ∀ p, ¬ p → Spec.ArrayOk (Spec.IntegerOut (lutBase a)) p a := by
        intro p hp
        refine ⟨?_, by simp [hr, hp], ⟨c, hc, hd⟩, .inl he⟩
        simp [Spec.IntegerOut, lutBase, Dict.get?, hi]
      rcases hk with rfl | rfl
      · exact .inr (.inr (.inl ⟨rfl, _, rfl, ok _ (by simp [Spec.Flagged, lutBase, Dict.get?])⟩))
      · exact .inr (.inl ⟨.inr rfl, _, rfl, ok _ not_false⟩)
  · obtain ⟨y, hy⟩ := C48_writes (K := ℚ) compat a.toS c hr he hi hc h0
    have h : ∃ z, (oneLut k a).write compat false = .ok z := by
      unfold PList.write oneLut lutBase
      simp only [List.mapM_nil, py_pure, py_ok_bind, writeNodes, Node.write, writeBase, py_mapM_cons,
        Elem.write, Arr.write, hy, List.mapM_nil]
      exact ⟨_, rfl⟩
    obtain ⟨z, hz⟩ := h
    exact ⟨_, by unfold PList.writeFile; rw [hz]; rfl⟩

/-- A LUT1D of thirds, a matrix entry of a third and a LUT3D of thirds meet the hypotheses. -/
example (load : String → Py (Option (List (Node ℚ)))) :
    (∃ (l : PList ℚ) (b : Base ℚ) (a : Arr ℚ) (V : Fin 2 → Fin 1 → ℚ) (f : File),
      Spec.StorableList 0 load l ∧ l.writeFile 0 false false = .ok f ∧ l.processes = [.leaf .lut1d b] ∧
      b.attrs.get? "bypass" = none ∧ PlainLut b (.str "16f") a ∧ Table1D a V ∧ V 1 0 = 1 / 3) ∧
    (∃ (l : PList ℚ) (b : Base ℚ) (a : Arr ℚ) (V : Fin 2 → Fin 2 → Fin 2 → Fin 3 → ℚ) (f : File),
      Spec.StorableList 0 load l ∧ l.writeFile 0 false false = .ok f ∧ l.processes = [.leaf .lut3d b] ∧
      b.attrs.get? "bypass" = none ∧ PlainLut3 b (.str "16f") (.str "trilinear") a ∧ Table3D a V ∧
      V 1 0 1 0 = 1 / 3) ∧
    (∃ f, Spec.StorableList 0 load (oneEntry (1 / 3)) ∧
      (oneEntry (1 / 3)).writeFile 0 false false = .ok f) := by
  refine ⟨?_, ?_, ?_⟩
  · let V : Fin 2 → Fin 1 → ℚ := fun i _ => (i : ℕ) / 3
    let a : Arr ℚ := { dims := [2, 1], values := Spec.rowMajor fun i j => .fin (V i j) }
    obtain ⟨h1, f, h2⟩ := oneLut_writes .lut1d (.inl rfl) a 1 rfl rfl rfl rfl (by norm_num)
      (one_dvd _) 0 load
    exact ⟨_, _, a, V, f, h1, h2, rfl, rfl, ⟨rfl, rfl, by decide, rfl, rfl, rfl⟩,
      ⟨⟨[], rfl⟩, rfl, .inl rfl⟩, by norm_num [V]⟩
  · let V : Fin 2 → Fin 2 → Fin 2 → Fin 3 → ℚ := fun i _ _ _ => (i : ℕ) / 3
    let a : Arr ℚ := { dims := [2, 2, 2, 3], values := Spec.cube fun i j k ch => .fin (V i j k ch) }
    obtain ⟨h1, f, h2⟩ := oneLut_writes .lut3d (.inr rfl) a 3 rfl rfl rfl rfl (by norm_num)
      (by show 3 ∣ (Spec.cube _).length; rw [cube_length]; exact dvd_mul_left _ _) 0 load
    exact ⟨_, _, a, V, f, h1, h2, rfl, rfl, ⟨rfl, rfl, rfl, rfl, rfl⟩,
      ⟨⟨[3], rfl⟩, rfl⟩, by norm_num [V]⟩
  · obtain ⟨f, hf⟩ := oneEntry_writes (1 / 3) 0
    exact ⟨f, oneEntry_storable _ _ _, hf⟩

end CLF
