import Verif.Lemmas.RoundedOrder
import Verif.Props.RoundedTree

/-! # Property C155: gradients stay gradients in IEEE arithmetic -/

set_option linter.unusedSectionVars false

namespace CLF

variable {K : Type} [Field K] [LinearOrder K] [IsStrictOrderedRing K] [FloorRing K]

theorem rowF_neg {m : ℕ} (f : Fin (m + 1) → K) (T : K) : rowF (fun i => -f i) T = -rowF f T := by
  unfold rowF
  exact lerpF_neg _ _ _

/-- The number that a table gives for a pixel value. -/
def tableF (din : AVal) {m : ℕ} (f : Fin (m + 1) → K) (x : K) : K := single.near (rowF f (posF m (unitF din x)))

theorem tableF_rises (din : AVal) {m : ℕ} (hm0 : 0 < m) (f : Fin (m + 1) → K) (hf : ∀ i, Spec.IsSingle (f i)) (hmono : Monotone f)
    {x y : K} (hx : Spec.IsSingle x) (hy : Spec.IsSingle y) (h : x ≤ y) : tableF din f x ≤ tableF din f y :=
  rowF_order hm0 f hf hmono (unitR_eq din hx).2 (unitR_eq din hy).2 (unitF_mono din h)

theorem tableF_falls (din : AVal) {m : ℕ} (hm0 : 0 < m) (f : Fin (m + 1) → K) (hf : ∀ i, Spec.IsSingle (f i)) (hmono : Antitone f)
    {x y : K} (hx : Spec.IsSingle x) (hy : Spec.IsSingle y) (h : x ≤ y) : tableF din f y ≤ tableF din f x := by
  have := tableF_rises din hm0 (fun i => -f i) (fun i => isSingle_neg (hf i)) (fun i j hij => neg_le_neg (hmono hij)) hx hy h
  unfold tableF at this ⊢
  rw [rowF_neg, rowF_neg, Fmt.near_neg, Fmt.near_neg] at this
  exact neg_le_neg_iff.mp this

/-- What a lookup gives, as a number. -/
theorem tableF_eq {din : AVal} {a : Arr K} {m c : ℕ} {V : Fin (m + 1) → Fin (c + 1) → K} (hT : Table1D a V)
    (hV : ∀ i j, Spec.IsSingle (V i j)) (hm : m < 2 ^ 53) (F : ℕ → Flt K → Flt K) (hF : ∀ i x, a.lookup1DLinearR ieee x i = .ok (F i x))
    (i : ℕ) {x : K} (hx : Spec.IsSingle x) :
    ieee single (F i (ieee single (toUnitR ieee (.fin x) (some din)))) = .fin (tableF din (fun k => V k (Spec.column c i)) x) ∧
      Spec.IsSingle (tableF din (fun k => V k (Spec.column c i)) x) ∧
      (∃ k, V k (Spec.column c i) ≤ tableF din (fun k => V k (Spec.column c i)) x) ∧
      ∃ k, tableF din (fun k => V k (Spec.column c i)) x ≤ V k (Spec.column c i) := by
  obtain ⟨hpe, hps⟩ := unitR_eq din hx
  have hpb : |unitF din x| ≤ 2 ^ 130 := hps.lt.le.trans (pow_le_pow_right₀ one_le_two (by norm_num))
  have hrow := (hF i (.fin (unitF din x))).symm.trans (linearR_table hT hV (lt_of_lt_of_le hm (by norm_num)) hpb i)
  obtain ⟨klo, hklo⟩ := Finite.exists_min fun k => V k (Spec.column c i)
  obtain ⟨khi, hkhi⟩ := Finite.exists_max fun k => V k (Spec.column c i)
  obtain ⟨h1, h2, h3⟩ := rowF_mem (fun k => V k (Spec.column c i)) (posF m (unitF din x)) _ _ (hV klo (Spec.column c i))
    (hV khi (Spec.column c i)) ⟨hklo _, hkhi _⟩ ⟨hklo _, hkhi _⟩
  rw [hpe, Except.ok.inj hrow]
  exact ⟨h1, isSingle_near h1, ⟨klo, h2⟩, ⟨khi, h3⟩⟩

/-- C155, as far as it holds: a LUT1D whose entries are `float32` numbers keeps the order of pixel values in IEEE arithmetic where its
column does not fall, and reverses it where its column does not rise, although none of the eight roundings of a lookup is
exact.  Missing: tables of doubles, for which this is false. -/
theorem C155_lut1d_partial (t : Fmt) (b : Base K) (din : AVal) (a : Arr K) (h : PlainLut b din a) {m c : ℕ}
    (V : Fin (m + 1) → Fin (c + 1) → K) (hT : Table1D a V) (hV : ∀ i j, Spec.IsSingle (V i j)) (hm0 : 0 < m)
    (hm : m < 2 ^ 53) (stride : ℕ) (hs : 0 < stride) (pixels : List (List (Flt K))) (hp : ∀ p ∈ pixels, p.length = stride) :
    ∃ (r : Res K) (F : ℕ → Flt K → Flt K), lut1dProcessR ieee t b pixels.flatten stride = .ok r ∧
      r.out = (pixels.map (Spec.mapColour F)).flatten ∧
      ∀ i x y, Spec.IsSingle x → Spec.IsSingle y → x ≤ y → ∃ u v, F i (.fin x) = .fin u ∧ F i (.fin y) = .fin v ∧
        ((Monotone fun k => V k (Spec.column c i)) → u ≤ v) ∧ ((Antitone fun k => V k (Spec.column c i)) → v ≤ u) := by
  have hF := fun i x => linearR_total hT ieee x i
  choose F hF using hF
  obtain ⟨r, hr, ho⟩ := lut1dR_node ieee t b din a h F hF stride hs pixels hp
  refine ⟨r, _, hr, ho, fun i x y hx hy hxy => ⟨_, _, (tableF_eq hT hV hm F hF i hx).1, (tableF_eq hT hV hm F hF i hy).1, fun hmono => ?_,
    fun hmono => ?_⟩⟩
  · exact tableF_rises din hm0 _ (fun k => hV k _) hmono hx hy hxy
  · exact tableF_falls din hm0 _ (fun k => hV k _) hmono hx hy hxy

/-- An inversion of 8-bit code values reverses their order. -/
example : ∃ (r : Res ℚ) (u v : ℚ), lut1dProcessR ieee double inversion4 [.fin 100, .fin 200] 1 = .ok r ∧ r.out = [.fin u, .fin v] ∧ v ≤ u := by
  obtain ⟨r, F, h1, h2, h3⟩ := C155_lut1d_partial double inversion4 _ _ inversion4_plain _ inversion4_table
    (fun i _ => inversion4_single i) (by norm_num) (by norm_num) 1 (by norm_num) [[.fin 100], [.fin 200]] (by simp)
  obtain ⟨u, v, e1, e2, -, e3⟩ := h3 0 100 200 (by exact_mod_cast isSingle_code (K := ℚ) 100 (by norm_num))
    (by exact_mod_cast isSingle_code (K := ℚ) 200 (by norm_num)) (by norm_num)
  refine ⟨r, u, v, h1, ?_, e3 ?_⟩
  · rw [h2]
    simp [Spec.mapColour, e1, e2]
  · intro i j hij
    fin_cases i <;> fin_cases j <;> revert hij <;> decide +kernel

/-- C155 is false: a table of doubles that is the same number twice gives a smaller number for a larger pixel value. -/
theorem C155_wide_false : ∃ (b : Base ℚ) (a : Arr ℚ) (V : Fin 2 → Fin 1 → ℚ) (x y u v : ℚ), PlainLut b (.str "32f") a ∧
    Table1D (m := 1) (c := 0) a V ∧ (∀ i j, double.near (V i j) = V i j) ∧ (Monotone fun k => V k 0) ∧
    Spec.IsSingle x ∧ Spec.IsSingle y ∧ x < y ∧
    (lut1dProcessR ieee double b [.fin x, .fin y] 1).map (·.out) = .ok [.fin u, .fin v] ∧ v < u :=
  ⟨{ attrs := [("inBitDepth", .str "32f"), ("outBitDepth", .str "32f")],
     elements := [.array { dims := [2, 1], values := [.fin (3 / 2 + 1 / 2 ^ 24 + 1 / 2 ^ 52), .fin (3 / 2 + 1 / 2 ^ 24 + 1 / 2 ^ 52)] }] },
    _, fun _ _ => 3 / 2 + 1 / 2 ^ 24 + 1 / 2 ^ 52, 0, 9 / 2 ^ 57, 3 / 2 + 1 / 2 ^ 23, 3 / 2,
    ⟨rfl, rfl, by decide, rfl, rfl, rfl⟩, ⟨⟨[], rfl⟩, by decide +kernel, .inl rfl⟩, by
      intro _ _
      show double.near (3 / 2 + 1 / 2 ^ 24 + 1 / 2 ^ 52 : ℚ) = 3 / 2 + 1 / 2 ^ 24 + 1 / 2 ^ 52
      decide +kernel, fun _ _ _ => le_rfl,
    by unfold Spec.IsSingle; decide +kernel, by unfold Spec.IsSingle; decide +kernel, by norm_num, by decide +kernel, by norm_num⟩

/-- A cube of two entries per axis that only depends on green and blue. -/
def quietCube : Arr ℚ where
  dims := [2, 2, 2, 3]
  values := (List.replicate 2 ([0, 1, 1, 2].map fun n : ℚ => List.replicate 3 (.fin (3 / 2 + n / 2 ^ 23)))).flatten.flatten

/-- C155 is false for cubes, even of `float32` entries that rise along each axis: of two colours of which one has more red than
the other and the same green and blue, the one with more red becomes the darker one. -/
theorem C155_cube_false : ∃ (b : Base ℚ) (a : Arr ℚ) (V : Fin 2 → Fin 2 → Fin 2 → Fin 3 → ℚ) (p q u v : Fin 3 → ℚ),
    PlainLut3 b (.str "32f") (.str "trilinear") a ∧ Table3D (m := 1) a V ∧ (∀ i j k ch, Spec.IsSingle (V i j k ch)) ∧
    (∀ i i' j j' k k' ch, i ≤ i' → j ≤ j' → k ≤ k' → V i j k ch ≤ V i' j' k' ch) ∧
    (∀ i, Spec.IsSingle (p i)) ∧ (∀ i, Spec.IsSingle (q i)) ∧ p < q ∧
    (lut3dProcessR ieee b (Spec.fins p ++ Spec.fins q) 3).map (·.out) = .ok (Spec.fins u ++ Spec.fins v) ∧ v < u := by
  refine ⟨{ attrs := [("inBitDepth", .str "32f"), ("outBitDepth", .str "32f"), ("interpolation", .str "trilinear")], elements := [.array quietCube] }, quietCube,
    fun _ j k _ => 3 / 2 + ((j : ℕ) + (k : ℕ)) / 2 ^ 23, ![0, 1 / 2 ^ 30, 1 / 2], ![9 / 2 ^ 57, 1 / 2 ^ 30, 1 / 2],
    fun _ => 3 / 2 + 1 / 2 ^ 23, fun _ => 3 / 2, ⟨rfl, rfl, by decide, rfl, rfl⟩, ⟨⟨[3], rfl⟩, by decide +kernel⟩, ?_, ?_, ?_, ?_, ?_, by decide +kernel, ?_⟩
  · intro i j k ch
    show Spec.IsSingle (3 / 2 + (((j : ℕ) : ℚ) + (k : ℕ)) / 2 ^ 23)
    unfold Spec.IsSingle
    revert j k
    decide +kernel
  · intro i i' j j' k k' ch _ hj hk
    show (3 / 2 + (((j : ℕ) : ℚ) + (k : ℕ)) / 2 ^ 23) ≤ 3 / 2 + (((j' : ℕ) : ℚ) + (k' : ℕ)) / 2 ^ 23
    have : ((j : ℕ) : ℚ) ≤ (j' : ℕ) := by exact_mod_cast hj
    have : ((k : ℕ) : ℚ) ≤ (k' : ℕ) := by exact_mod_cast hk
    linarith
  · unfold Spec.IsSingle
    decide +kernel
  · unfold Spec.IsSingle
    decide +kernel
  · rw [Pi.lt_def]
    refine ⟨fun i => ?_, 0, by norm_num⟩
    fin_cases i <;> norm_num
  · rw [Pi.lt_def]
    exact ⟨fun i => by norm_num, 0, by norm_num⟩

/-! ## Lists of nodes -/

/-- Node `n` keeps the order of colours: a rising table, a Range, or a Matrix without negative coefficients.  Colours of size up to
`B` come out with size up to `B'`. -/
inductive Rising (E : Evaluator K) : Node K → K → K → Prop
  | lut1d {b : Base K} {din : AVal} {a : Arr K} {m c : ℕ} {V : Fin (m + 1) → Fin (c + 1) → K} {B B' : K} (h : PlainLut b din a)
    (hT : Table1D a V) (hV : ∀ i j, Spec.IsSingle (V i j)) (hm0 : 0 < m) (hm : m < 2 ^ 53) (hmono : ∀ j, Monotone fun i => V i j)
    (hB : ∀ i j, |V i j| ≤ B') : Rising E (.leaf .lut1d b) B B'
  | range {b : Base K} {din dout : AVal} {mi ma mo mx B B' : K} (h : FullRange b din dout mi ma mo mx) (hcl : Clamps b)
    (hb : Spec.Bounds din dout mi ma mo mx) (h1 : |mo| ≤ B') (h2 : |mx| ≤ B') : Rising E (.leaf .range b) B B'
  | matrix {b : Base K} {M : Matrix (Fin 3) (Fin 3) K} {N B : K} (h : MatrixNode b M)
    (ht : E.table b = half ∨ E.table b = single ∨ E.table b = double) (h0 : ∀ i j, 0 ≤ M i j) (hM : ∀ i, ∑ j, M i j ≤ N)
    (hB : N * B ≤ 2 ^ 120) : Rising E (.leaf .matrix b) B (2 * (N * B) + 1)
  | affine {b : Base K} {M : Matrix (Fin 3) (Fin 3) K} {s : Fin 3 → K} {N T B : K} (h : AffineNode b M s)
    (ht : E.table b = half ∨ E.table b = single ∨ E.table b = double) (h0 : ∀ i j, 0 ≤ M i j) (hM : ∀ i, ∑ j, M i j ≤ N)
    (hs : ∀ i, |s i| ≤ T) (hB : N * B + T ≤ 2 ^ 120) : Rising E (.leaf .matrix b) B (3 * (N * B + T) + 2)

/-- A list of such nodes, none bypassed. -/
inductive RisingList (E : Evaluator K) : List (Node K) → K → Prop
  | nil {B : K} : RisingList E [] B
  | cons {n : Node K} {ns : List (Node K)} {B B' : K} (hn : Rising E n B B') (hby : n.attr "bypass" = none) (hns : RisingList E ns B') :
    RisingList E (n :: ns) B

/-- A function on images works pixel by pixel and keeps the order of colours. -/
def Keeps (f : List (Flt K) → Py (Res K)) (B B' : K) : Prop :=
  ∃ g : (Fin 3 → K) → Fin 3 → K, (∀ p, Small B p → Small B' (g p)) ∧ (∀ p q, Small B p → Small B q → p ≤ q → g p ≤ g q) ∧
    ∀ pixels : List (Fin 3 → K), (∀ p ∈ pixels, Small B p) → ∃ r, f (Spec.rgb pixels) = .ok r ∧ r.out = Spec.rgb (pixels.map g)

theorem accF_rises (w : Fmt) (c v v' : ℕ → K) (hc : ∀ j, 0 ≤ c j) (hv : ∀ j, v j ≤ v' j) (n : ℕ) : accF w c v n ≤ accF w c v' n := by
  induction n with
  | zero => exact le_rfl
  | succ n ih =>
    exact Fmt.near_mono _ (Fmt.near_mono _ (add_le_add ih (Fmt.near_mono _ (mul_le_mul_of_nonneg_left (hv n) (hc n)))))

theorem padded_mono {n : ℕ} {v v' : Fin n → K} (h : v ≤ v') (j : ℕ) : padded v j ≤ padded v' j := by
  unfold padded
  split
  · exact h _
  · exact le_rfl

theorem padded_nonneg {n : ℕ} {v : Fin n → K} (h : ∀ j, 0 ≤ v j) (j : ℕ) : 0 ≤ padded v j := by
  unfold padded
  split
  · exact h _
  · exact le_rfl

theorem keeps_lut1d (t : Fmt) {b : Base K} {din : AVal} {a : Arr K} {m c : ℕ} {V : Fin (m + 1) → Fin (c + 1) → K} {B B' : K}
    (h : PlainLut b din a) (hT : Table1D a V) (hV : ∀ i j, Spec.IsSingle (V i j)) (hm0 : 0 < m) (hm : m < 2 ^ 53)
    (hmono : ∀ j, Monotone fun i => V i j) (hB : ∀ i j, |V i j| ≤ B') : Keeps (fun v => lut1dProcessR ieee t b v 3) B B' := by
  have hF := fun i x => linearR_total hT ieee x i
  choose F hF using hF
  have key := fun i {x} hx => tableF_eq (din := din) hT hV hm F hF i (x := x) hx
  refine ⟨fun p i => tableF din (fun k => V k (Spec.column c i)) (p i), fun p hp i => ?_, fun p q hp hq hpq i => ?_, fun pixels hp => ?_⟩
  · obtain ⟨-, h1, ⟨k, h2⟩, ⟨k', h3⟩⟩ := key i (hp i).1
    exact ⟨h1, abs_le.mpr ⟨(abs_le.mp (hB k _)).1.trans h2, h3.trans (abs_le.mp (hB k' _)).2⟩⟩
  · exact tableF_rises din hm0 _ (fun k => hV k _) (hmono _) (hp i).1 (hq i).1 (hpq i)
  · obtain ⟨r, hr, ho⟩ := lut1dR_node ieee t b din a h F hF 3 (by norm_num) (pixels.map Spec.fins) (by simp [Spec.fins])
    refine ⟨r, hr, ho.trans ?_⟩
    rw [List.map_map, Spec.rgb, List.map_map]
    congr 1
    refine List.map_congr_left fun p hp' => ?_
    exact mapColour_fins _ (fun i x => tableF din (fun k => V k (Spec.column c i)) x) p fun i => (key i (hp p hp' i).1).1

theorem keeps_range {b : Base K} {din dout : AVal} {mi ma mo mx B B' : K} (h : FullRange b din dout mi ma mo mx) (hcl : Clamps b)
    (hb : Spec.Bounds din dout mi ma mo mx) (h1 : |mo| ≤ B') (h2 : |mx| ≤ B') : Keeps (fun v => rangeProcessR ieee b v) B B' := by
  have hnum : ∀ x, Spec.IsSingle x → Spec.IsSingle (rangeF din dout mi ma mo mx x) ∧ mo ≤ rangeF din dout mi ma mo mx x ∧
      rangeF din dout mi ma mo mx x ≤ mx := by
    intro x hx
    obtain ⟨y, -, -, -, hf, -, h1, h2, h3⟩ := rangeR_any hb (.fin x)
    rw [hf x rfl hx] at h1 h2 h3
    exact ⟨h1, h2, h3⟩
  refine ⟨fun p i => rangeF din dout mi ma mo mx (p i), fun p hp i => ?_, fun p q hp hq hpq i => rangeF_mono hb.lt.le hb.le (hpq i),
    fun pixels hp => ?_⟩
  · obtain ⟨e1, e2, e3⟩ := hnum (p i) (hp i).1
    exact ⟨e1, abs_le.mpr ⟨(abs_le.mp h1).1.trans e2, e3.trans (abs_le.mp h2).2⟩⟩
  · have hsingle : ∀ x ∈ (pixels.map fun p => List.ofFn p).flatten, Spec.IsSingle x := by
      intro x hx
      simp only [List.mem_flatten, List.mem_map, exists_exists_and_eq_and, List.mem_ofFn] at hx
      obtain ⟨p, hp', i, rfl⟩ := hx
      exact (hp p hp' i).1
    refine ⟨_, (congrArg _ (rgb_fin pixels)).trans (rangeR_finite h hcl hb _ hsingle).1, ?_⟩
    rw [rgb_fin, List.map_map, List.map_flatten, List.map_flatten, List.map_map, List.map_map]
    simp [List.map_ofFn, Function.comp_def]

theorem keeps_matrix {t : Fmt} (ht : t = half ∨ t = single ∨ t = double) {b : Base K} {M : Matrix (Fin 3) (Fin 3) K} {N B : K}
    (h : MatrixNode b M) (h0 : ∀ i j, 0 ≤ M i j) (hM : ∀ i, ∑ j, M i j ≤ N) (hB : N * B ≤ 2 ^ 120) :
    Keeps (fun v => matrixProcessR ieee t b v 3) B (2 * (N * B) + 1) := by
  have hw := wider_single ht
  obtain ⟨a, rest, ha, hd, hv⟩ := h.array
  have hM' : ∀ i, ∑ j, |M i j| ≤ N := fun i => by
    rw [Finset.sum_congr rfl fun j _ => abs_of_nonneg (h0 i j)]
    exact hM i
  have hz : ∀ p : Fin 3 → K, Small B p → ∀ i, ∑ j, |M i j * p j| ≤ N * B := fun p hp i => by
    have := linear_size (s := fun _ => 0) (T := 0) hM' (by simp) hp i
    simpa using this
  have hfin := fun (v : Fin 3 → K) i (hv : Small B v) =>
    accR_fin hw (padded (M i)) (padded v) 3 (by norm_num) ((padded_size (M i) v).trans_le ((hz v hv i).trans hB))
  refine ⟨fun v i => accF (t.wider single) (padded (M i)) (padded v) 3, fun p hp i => ⟨?_, ?_⟩, fun p q hp hq hpq i => ?_, fun pixels hp => ?_⟩
  · exact accF_single hw _ _ 3 (by norm_num) ((padded_size (M i) p).trans_le ((hz p hp i).trans hB))
  · have := accF_size hw (padded (M i)) (padded p) 3 (by norm_num)
    rw [padded_size] at this
    linarith [hz p hp i]
  · exact accF_rises _ _ _ _ (padded_nonneg (h0 i)) (padded_mono hpq) 3
  · have e := matrixR_image ieee t b a 3 rest h.inDepth h.outDepth ha hd
      (fun v i => accF (t.wider single) (padded (M i)) (padded v) 3) 3 (by norm_num) (pixels.map fun p => (p, [])) (fun p hp' i => by
        obtain ⟨p, hp1, rfl⟩ := List.mem_map.mp hp'
        rw [hv]
        exact rowR_linear ieee t M p [] i (accF (t.wider single) (padded (M i)) (padded p)) rfl fun j hj => (hfin p i (hp p hp1) j hj).1)
      (by simp)
    rw [rgb_image] at e
    refine ⟨_, e, ?_⟩
    refine (congrArg Spec.image (List.map_map ..)).trans (Eq.trans ?_ (rgb_image _))
    rw [List.map_map]
    rfl

theorem keeps_affine {t : Fmt} (ht : t = half ∨ t = single ∨ t = double) {b : Base K} {M : Matrix (Fin 3) (Fin 3) K} {s : Fin 3 → K}
    {N T B : K} (h : AffineNode b M s) (h0 : ∀ i j, 0 ≤ M i j) (hM : ∀ i, ∑ j, M i j ≤ N) (hs : ∀ i, |s i| ≤ T)
    (hB : N * B + T ≤ 2 ^ 120) : Keeps (fun v => matrixProcessR ieee t b v 3) B (3 * (N * B + T) + 2) := by
  have hw := wider_single ht
  obtain ⟨a, rest, ha, hd, hv⟩ := h.array
  have hM' : ∀ i, ∑ j, |M i j| ≤ N := fun i => by
    rw [Finset.sum_congr rfl fun j _ => abs_of_nonneg (h0 i j)]
    exact hM i
  have hz : ∀ p : Fin 3 → K, Small B p → ∀ i, (∑ j, |M i j * p j|) + |s i| ≤ N * B + T := fun p hp i => linear_size hM' hs hp i
  have hz1 : ∀ p : Fin 3 → K, Small B p → ∀ i, ∑ j, |M i j * p j| ≤ 2 ^ 120 := fun p hp i => by
    linarith [hz p hp i, abs_nonneg (s i)]
  have hz2 : ∀ p : Fin 3 → K, Small B p → ∀ i, |s i| ≤ 2 ^ 122 := fun p hp i => by
    have := hz p hp i
    have := Finset.sum_nonneg (s := Finset.univ) fun j (_ : j ∈ Finset.univ) => abs_nonneg (M i j * p j)
    have : (2 : K) ^ 120 ≤ 2 ^ 122 := pow_le_pow_right₀ one_le_two (by norm_num)
    linarith
  have hacc : ∀ p : Fin 3 → K, Small B p → ∀ i, |accF (t.wider single) (padded (M i)) (padded p) 3| ≤ 2 ^ 122 := fun p hp i => by
    refine (accF_size hw _ _ 3 (by norm_num)).trans ?_
    have := (padded_size (M i) p).trans_le (hz1 p hp i)
    have : 2 * (2 : K) ^ 120 + 1 ≤ 2 ^ 122 := by norm_num
    linarith
  have hfin := fun (v : Fin 3 → K) i (hv : Small B v) =>
    accR_fin hw (padded (M i)) (padded v) 3 (by norm_num) ((padded_size (M i) v).trans_le (hz1 v hv i))
  refine ⟨fun v i => stepF (t.wider single) (accF (t.wider single) (padded (M i)) (padded v) 3) (s i), fun p hp i => ⟨?_, ?_⟩,
    fun p q hp hq hpq i => ?_, fun pixels hp => ?_⟩
  · exact (stepR_fin hw (hacc p hp i) (hz2 p hp i)).2
  · have e1 := accF_size hw (padded (M i)) (padded p) 3 (by norm_num)
    have e2 := stepF_err hw (accF (t.wider single) (padded (M i)) (padded p) 3) (s i)
    rw [padded_size] at e1
    have e3 := hz p hp i
    have e4 := abs_add_le (accF (t.wider single) (padded (M i)) (padded p) 3) (s i)
    have e5 := abs_nonneg (s i)
    have e6 : (2 : K) ^ (-150 : ℤ) ≤ 1 / 8 := by
      rw [show (1 / 8 : K) = 2 ^ (-3 : ℤ) by norm_num]
      exact zpow_le_zpow_right₀ one_le_two (by norm_num)
    have e7 := Finset.sum_nonneg (s := Finset.univ) fun j (_ : j ∈ Finset.univ) => abs_nonneg (M i j * p j)
    have e8 := abs_add_le (stepF (t.wider single) (accF (t.wider single) (padded (M i)) (padded p) 3) (s i)
      - (accF (t.wider single) (padded (M i)) (padded p) 3 + s i)) (accF (t.wider single) (padded (M i)) (padded p) 3 + s i)
    rw [sub_add_cancel] at e8
    show |stepF (t.wider single) (accF (t.wider single) (padded (M i)) (padded p) 3) (s i)| ≤ _
    generalize (2 : K) ^ (-150 : ℤ) = μ at *
    norm_num at e2
    linarith
  · exact Fmt.near_mono _ (Fmt.near_mono _ (add_le_add (accF_rises _ _ _ _ (padded_nonneg (h0 i)) (padded_mono hpq) 3) le_rfl))
  · have e := matrixR_image ieee t b a 4 rest h.inDepth h.outDepth ha hd
      (fun v i => stepF (t.wider single) (accF (t.wider single) (padded (M i)) (padded v) 3) (s i)) 3 (by norm_num)
      (pixels.map fun p => (p, [])) (fun p hp' i => by
        obtain ⟨p, hp1, rfl⟩ := List.mem_map.mp hp'
        rw [hv]
        exact rowR_affine ieee t M s p [] i (accF (t.wider single) (padded (M i)) (padded p)) rfl
          (fun j hj => (hfin p i (hp p hp1) j hj).1) _ (stepR_fin hw (hacc p (hp p hp1) i) (hz2 p (hp p hp1) i)).1)
      (by simp)
    rw [rgb_image] at e
    refine ⟨_, e, ?_⟩
    refine (congrArg Spec.image (List.map_map ..)).trans (Eq.trans ?_ (rgb_image _))
    rw [List.map_map]
    rfl

theorem keeps_node {E : Evaluator K} (hE : E.rounding = ieee) (compat : ℕ) {n : Node K} {B B' : K} (h : Rising E n B B') :
    Keeps (n.processR E compat 3) B B' := by
  cases h with
  | @lut1d b din a m c V _ _ h hT hV hm0 hm hmono hB =>
    have := keeps_lut1d (E.table b) (B := B) h hT hV hm0 hm hmono hB
    simpa only [Keeps, Node.processR, leafProcessR, hE] using this
  | range h hcl hb h1 h2 =>
    have := keeps_range (B := B) h hcl hb h1 h2
    simpa only [Keeps, Node.processR, leafProcessR, hE] using this
  | matrix h ht h0 hM hB =>
    have := keeps_matrix ht h h0 hM hB
    simpa only [Keeps, Node.processR, leafProcessR, hE] using this
  | affine h ht h0 hM hs hB =>
    have := keeps_affine ht h h0 hM hs hB
    simpa only [Keeps, Node.processR, leafProcessR, hE] using this

theorem keeps_list {E : Evaluator K} (hE : E.rounding = ieee) (compat : ℕ) {ns : List (Node K)} {B : K} (h : RisingList E ns B) :
    ∃ g : (Fin 3 → K) → Fin 3 → K, (∀ p, Small B p → ∀ i, Spec.IsSingle (g p i)) ∧
      (∀ p q, Small B p → Small B q → p ≤ q → g p ≤ g q) ∧
      ∀ (pixels : List (Fin 3 → K)), (∀ p ∈ pixels, Small B p) → ∀ (prev : Option Depth) (arg : List (Flt K)) (same : Bool), ∃ r,
        runNodesR E compat 3 false prev ns ⟨Spec.rgb pixels, arg, same⟩ = .ok r ∧ r.out = Spec.rgb (pixels.map g) := by
  induction h with
  | nil =>
    refine ⟨id, fun p hp i => (hp i).1, fun p q _ _ h => h, fun pixels hp prev arg same => ⟨_, by rw [runNodesR], ?_⟩⟩
    rw [List.map_id]
  | @cons n ns B B' hn hby hns ih =>
    obtain ⟨g, a1, a2, a3⟩ := keeps_node hE compat hn
    obtain ⟨g', b1, b2, b3⟩ := ih
    refine ⟨fun p => g' (g p), fun p hp => b1 _ (a1 p hp), fun p q hp hq h => b2 _ _ (a1 p hp) (a1 q hq) (a2 p q hp hq h),
      fun pixels hp prev arg same => ?_⟩
    obtain ⟨r, h1, h2⟩ := a3 pixels hp
    obtain ⟨r', k1, k2⟩ := b3 (pixels.map g) (by
      intro p hp'
      obtain ⟨q, hq, rfl⟩ := List.mem_map.mp hp'
      exact a1 q (hp q hq)) (some n.outDepth) (if same then r.arg else arg) (same && r.same)
    refine ⟨r', ?_, ?_⟩
    · rw [← k1]
      conv_lhs => unfold runNodesR
      simp only [hby, Option.isNone_none, Bool.true_or, if_true, h1, py_ok_bind, py_pure, Res.step, h2]
    · rw [k2, List.map_map]
      rfl

/-- C155: a list of rising tables, Ranges and Matrices without negative coefficients treats pixels one by one and keeps the order of
colours of `float32` numbers, with all roundings. -/
theorem C155_list (E : Evaluator K) (hE : E.rounding = ieee) (compat : ℕ) (ns : List (Node K)) (B : K) (h : RisingList E ns B) :
    ∃ g : (Fin 3 → K) → Fin 3 → K,
      (∀ pixels : List (Fin 3 → K), (∀ p ∈ pixels, ∀ i, Spec.IsSingle (p i) ∧ |p i| ≤ B) →
        processListR E compat ns (Spec.rgb pixels) 3 = .ok (Spec.rgb (pixels.map g))) ∧
      ∀ p q : Fin 3 → K, (∀ i, Spec.IsSingle (p i) ∧ |p i| ≤ B) → (∀ i, Spec.IsSingle (q i) ∧ |q i| ≤ B) → (∀ i, p i ≤ q i) →
        ∀ i, g p i ≤ g q i := by
  obtain ⟨g, -, h2, h3⟩ := keeps_list hE compat h
  refine ⟨g, fun pixels hp => ?_, fun p q hp hq hpq => h2 p q hp hq hpq⟩
  obtain ⟨r, k1, k2⟩ := h3 pixels hp none (Spec.rgb pixels) true
  unfold processListR
  rw [hE, copy_rgb pixels fun p hp' i => (hp p hp' i).1]
  simp only [k1, py_ok_bind, py_pure, k2]

/-- A mix of channels, then a curve from 16-bit half numbers to 8-bit code values. -/
def sampleRising : List (Node ℚ) :=
  [.leaf .matrix (exampleMatrixBase [1 / 3, 1 / 3, 1 / 3, 0, 1, 0, 1 / 10, 2 / 10, 7 / 10] [3, 3, 3]),
    .leaf .lut1d { attrs := [("inBitDepth", .str "16f"), ("outBitDepth", .str "8i")],
                   elements := [.array { dims := [3, 1], values := [.fin 0, .fin 85, .fin 255] }] }]

theorem sampleRising_list (E : Evaluator ℚ) (ht : ∀ b, E.table b = double) : RisingList E sampleRising 100 := by
  refine .cons (.matrix (M := !![1 / 3, 1 / 3, 1 / 3; 0, 1, 0; 1 / 10, 2 / 10, 7 / 10]) (N := 1) ⟨rfl, rfl, _, [3], rfl, rfl, rfl⟩
    (.inr (.inr (ht _))) ?_ ?_ (by norm_num)) rfl (.cons (B' := 255) (.lut1d (din := .str "16f") (m := 2) (c := 0)
    (V := fun k _ => ![0, 85, 255] k) ⟨rfl, rfl, by decide, rfl, rfl, rfl⟩ ⟨⟨[], rfl⟩, by decide +kernel, .inl rfl⟩ ?_ (by norm_num) (by norm_num) ?_ ?_) rfl .nil)
  · intro i j
    fin_cases i <;> fin_cases j <;> norm_num
  · intro i
    fin_cases i <;> simp [Fin.sum_univ_three] <;> norm_num
  · intro i j
    fin_cases i
    · exact_mod_cast isSingle_code (K := ℚ) 0 (by norm_num)
    · exact_mod_cast isSingle_code (K := ℚ) 85 (by norm_num)
    · exact_mod_cast isSingle_code (K := ℚ) 255 (by norm_num)
  · intro _ i j hij
    fin_cases i <;> fin_cases j <;> revert hij <;> decide +kernel
  · intro i j
    fin_cases i <;> norm_num

example (L : Arith ℚ) (k n : ℕ) (h : k ≤ n) (hn : n ≤ 100) : ∃ u v : Fin 3 → ℚ,
    processListR ⟨ieee, fun _ => double, L⟩ autodesk sampleRising [.fin k, .fin k, .fin 1, .fin n, .fin k, .fin 2] 3
      = .ok [.fin (u 0), .fin (u 1), .fin (u 2), .fin (v 0), .fin (v 1), .fin (v 2)] ∧ u ≤ v := by
  obtain ⟨g, h1, h2⟩ := C155_list ⟨ieee, fun _ => double, L⟩ rfl autodesk _ _ (sampleRising_list _ fun _ => rfl)
  have hs : ∀ j : ℕ, j ≤ 100 → Spec.IsSingle (j : ℚ) ∧ |(j : ℚ)| ≤ 100 := fun j hj =>
    ⟨isSingle_code j (by omega), by rw [abs_of_nonneg (Nat.cast_nonneg j)]; exact_mod_cast hj⟩
  have s1 : ∀ i, Spec.IsSingle ((![(k : ℚ), k, (1 : ℕ)] : Fin 3 → ℚ) i) ∧ |(![(k : ℚ), k, (1 : ℕ)] : Fin 3 → ℚ) i| ≤ 100 := by
    intro i
    fin_cases i
    exacts [hs k (by omega), hs k (by omega), hs 1 (by norm_num)]
  have s2 : ∀ i, Spec.IsSingle ((![(n : ℚ), k, (2 : ℕ)] : Fin 3 → ℚ) i) ∧ |(![(n : ℚ), k, (2 : ℕ)] : Fin 3 → ℚ) i| ≤ 100 := by
    intro i
    fin_cases i
    exacts [hs n (by omega), hs k (by omega), hs 2 (by norm_num)]
  refine ⟨_, _, ?_, h2 _ _ s1 s2 ?_⟩
  · have := h1 [_, _] (by
      intro p hp
      rcases List.mem_pair.mp hp with rfl | rfl
      exacts [s1, s2])
    simpa [Spec.rgb, Spec.fins, List.ofFn_succ] using this
  · intro i
    fin_cases i
    · show (k : ℚ) ≤ n
      exact_mod_cast h
    · exact le_rfl
    · norm_num

end CLF
