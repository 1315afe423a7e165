import Verif.Spec.StoredChain
import Verif.Props.Precision
import Verif.Props.RoundedList
import Verif.Props.EndToEnd

/-! # Property C134: lists that have been stored, in IEEE arithmetic -/

set_option linter.unusedSectionVars false

namespace CLF

variable {K : Type} [Field K] [LinearOrder K] [IsStrictOrderedRing K] [FloorRing K]

/-- The array is written as decimals. -/
def DecimalArray (a : Arr K) : Prop := a.rawHalfs = false ∧ a.floatEncoding = "string"

/-- Node `n` is stage `s`.  Tables are written as decimals and may hold any numbers; the bounds of a Range have at most
twelve digits. -/
inductive Drawn : Node K → Spec.Stage K → Prop
  | matrix {b : Base K} {M : Matrix (Fin 3) (Fin 3) K} {a : Arr K} (h : MatrixNode b M) (ha : b.array = .ok a) (hd : DecimalArray a) :
    Drawn (.leaf .matrix b) (.linear M fun _ => 0)
  | affine {b : Base K} {M : Matrix (Fin 3) (Fin 3) K} {s : Fin 3 → K} {a : Arr K} (h : AffineNode b M s) (ha : b.array = .ok a)
    (hd : DecimalArray a) : Drawn (.leaf .matrix b) (.linear M s)
  | lut1d {b : Base K} {din : AVal} {a : Arr K} {m c : ℕ} {V : Fin (m + 1) → Fin (c + 1) → K} (h : PlainLut b din a)
    (hT : Table1D a V) (hd : DecimalArray a) (hm0 : 0 < m) (hm : m < 2 ^ 53) :
    Drawn (.leaf .lut1d b) (.curves (Spec.fullScale (some din)) m fun ch k => V k (Spec.column c ch))
  | lut3d {b : Base K} {din : AVal} {a : Arr K} {m : ℕ} {V : Fin (m + 1) → Fin (m + 1) → Fin (m + 1) → Fin 3 → K}
    (h : PlainLut3 b din (.str "trilinear") a) (hT : Table3D a V) (hd : DecimalArray a) (hm0 : 0 < m)
    (hm : m < 2 ^ 53) : Drawn (.leaf .lut3d b) (.cube (Spec.fullScale (some din)) m fun ch i j k => V i j k ch)
  | tetra {b : Base K} {din : AVal} {a : Arr K} {m : ℕ} {V : Fin (m + 1) → Fin (m + 1) → Fin (m + 1) → Fin 3 → K}
    (h : PlainLut3 b din (.str "tetrahedral") a) (hT : Table3D a V) (hd : DecimalArray a) (hm0 : 0 < m)
    (hm : m < 2 ^ 53) : Drawn (.leaf .lut3d b) (.tetra (Spec.fullScale (some din)) m fun ch i j k => V i j k ch)
  | range {b : Base K} {din dout : AVal} {mi ma mo mx : K} (h : FullRange b din dout mi ma mo mx) (hcl : Clamps b)
    (hb : Spec.Bounds din dout mi ma mo mx) (hd : Spec.bits (some din) = none) (hi : 0 ≤ mi) (ho : 0 ≤ mo)
    (hx : ∀ x ∈ [mi, ma, mo, mx], Spec.Digits12 x) : Drawn (.leaf .range b) (.clamp mi ma mo mx)

theorem Drawn.wf {n : Node K} {s : Spec.Stage K} (h : Drawn n s) : StageOk s := by
  cases h with
  | matrix => trivial
  | affine => trivial
  | lut1d _ _ _ hm0 => exact ⟨fullScale_pos _, hm0⟩
  | lut3d _ _ _ hm0 => exact ⟨fullScale_pos _, hm0⟩
  | tetra _ _ _ hm0 => exact ⟨fullScale_pos _, hm0⟩
  | range _ _ hb => exact ⟨hb.lt, hb.le⟩

/-! ### Numbers and tables -/

theorem storeError_mono {x y : K} (h : x ≤ y) : Spec.storeError x ≤ Spec.storeError y := by
  unfold Spec.storeError
  have := div_le_div_of_nonneg_right h (by positivity : (0 : K) ≤ 2 ^ 24)
  linarith

theorem storeError_nonneg {x : K} (h : 0 ≤ x) : 0 ≤ Spec.storeError x := by
  unfold Spec.storeError
  positivity

/-- A table value comes back as a `float32` number. -/
theorem tableValue_single {A : Arith K} (hA : ∀ x, A.f32 x = single.round x) {v : K} {y : Flt K} (h : Spec.TableValue A none (.fin v) y)
    (hv : |v| ≤ 2 ^ 120) : ∃ w, y = .fin w ∧ Spec.IsSingle w ∧ |w - v| ≤ Spec.storeError |v| := by
  obtain ⟨d, h1, h2, rfl⟩ := h
  obtain ⟨u, hu, hn⟩ := fins_of_near (tableValue_near (A := ⟨id, A.pow, A.log10⟩) (fun _ => rfl) (x := .fin v) ⟨d, h1, h2, rfl⟩)
  have hu : d.toFlt = .fin u := hu
  have hu2 : |u| ≤ |v| + 1 / 2 / 10 ^ 9 := by
    have := abs_add_le (u - v) v
    rw [sub_add_cancel, abs_sub_comm] at this
    linarith
  have hbig : |u| ≤ 2 ^ 125 := by
    have : (2 : K) ^ 120 + 1 / 2 / 10 ^ 9 ≤ 2 ^ 125 := by norm_num
    linarith
  have hs := single_fin hbig
  unfold ieee at hs
  refine ⟨single.near u, by rw [hu, hA, hs], isSingle_near hs, ?_⟩
  have herr := single_rounder.err u
  have h3 := single_small (K := K)
  have h4 := abs_add_le (single.near u - u) (u - v)
  rw [sub_add_sub_cancel, abs_sub_comm u v] at h4
  unfold Spec.storeError
  have h5 : |u| * (1 / 2 ^ 24) ≤ (|v| + 1 / 2 / 10 ^ 9) * (1 / 2 ^ 24) := mul_le_mul_of_nonneg_right hu2 (by positivity)
  have h6 : (2 : K) ^ (-150 : ℤ) ≤ 1 / 2 ^ 40 := by
    rw [zpow_neg, ← one_div]
    refine one_div_le_one_div_of_le (by positivity) ?_
    rw [show (150 : ℤ) = ((150 : ℕ) : ℤ) from rfl, zpow_natCast]
    exact pow_le_pow_right₀ one_le_two (by norm_num)
  generalize (2 : K) ^ (-150 : ℤ) = μ at *
  norm_num at *
  linarith

theorem decimal_values {A : Arith K} {a a' : Arr K} (h : Spec.SameArray A a a') (hd : DecimalArray a) :
    List.Forall₂ (Spec.TableValue A none) a.values a'.values := by
  obtain ⟨-, -, -, -, h⟩ := h
  rw [hd.1, hd.2] at h
  exact h

theorem rowMajorAug_inv {R : Flt K → Flt K → Prop} {n m : ℕ} {M : Fin n → Fin m → Flt K} {t : Fin n → Flt K} {ys : List (Flt K)}
    (h : List.Forall₂ R (Spec.rowMajorAug M t) ys) :
    ∃ (M' : Fin n → Fin m → Flt K) (t' : Fin n → Flt K), ys = Spec.rowMajorAug M' t' ∧ (∀ i j, R (M i j) (M' i j)) ∧ ∀ i, R (t i) (t' i) := by
  obtain ⟨zs, rfl, h'⟩ := forall₂_flatten_inv h
  obtain ⟨g, rfl, hg⟩ := forall₂_ofFn_inv h'
  have key : ∀ i, ∃ (r : Fin m → Flt K) (s : Flt K), g i = List.ofFn r ++ [s] ∧ (∀ j, R (M i j) (r j)) ∧ R (t i) s := by
    intro i
    have h := hg i
    have ht := List.forall₂_take m h
    have hd := List.forall₂_drop m h
    rw [List.take_left' (by simp)] at ht
    rw [List.drop_left' (by simp)] at hd
    obtain ⟨r, h1, h2⟩ := forall₂_ofFn_inv ht
    generalize hz : (g i).drop m = zs at hd
    cases hd with
    | cons h3 h4 =>
      cases h4
      exact ⟨r, _, by rw [← h1, ← hz, List.take_append_drop], h2, h3⟩
  choose M' t' h1 h2 h3 using key
  exact ⟨M', t', by unfold Spec.rowMajorAug; simp only [← h1], h2, h3⟩

/-! ### Stages with nearby numbers -/

theorem steps_near {m : ℕ} {f g : Fin (m + 1) → K} {J τ : K} (h : Spec.StepsWithin f J) (hn : ∀ k, |g k - f k| ≤ τ) :
    Spec.StepsWithin g (J + 2 * τ) := by
  intro k hk
  have h1 := h k hk
  have h2 := hn ⟨k + 1, by omega⟩
  have h3 := hn ⟨k, by omega⟩
  rw [abs_le] at *
  constructor <;> linarith

theorem size_near {x y C τ : K} (hx : |x| ≤ C) (h : |y - x| ≤ τ) : |y| ≤ C + τ := by
  rw [abs_le] at *
  constructor <;> linarith

theorem lov_sub (fx fy fz : K) (c d : Bool → Bool → Bool → K) :
    lov fx fy fz c - lov fx fy fz d = lov fx fy fz fun a b e => c a b e - d a b e := by
  unfold lov
  ring

theorem tetRow_near {m : ℕ} {V W : Fin (m + 1) → Fin (m + 1) → Fin (m + 1) → K} {τ : K} (h : ∀ i j k, |W i j k - V i j k| ≤ τ) (x y z : K) :
    |tetRow W x y z - tetRow V x y z| ≤ τ := by
  unfold tetRow
  rw [lov_sub]
  exact tetRow_abs (fun i j k (_ : Fin 3) => W i j k - V i j k) 0 τ h x y z

theorem linear_near {M M' : Fin 3 → Fin 3 → K} {s s' v : Fin 3 → K} {B ρ σ : K} (hM : ∀ i, ∑ j, |M' i j - M i j| ≤ ρ)
    (hs : ∀ i, |s' i - s i| ≤ σ) (hv : ∀ j, |v j| ≤ B) (i : Fin 3) :
    |Spec.Stage.eval (.linear M' s') v i - Spec.Stage.eval (.linear M s) v i| ≤ ρ * B + σ := by
  have hB : 0 ≤ B := (abs_nonneg _).trans (hv 0)
  have e : Spec.Stage.eval (.linear M' s') v i - Spec.Stage.eval (.linear M s) v i = ∑ j, (M' i j - M i j) * v j + (s' i - s i) := by
    simp only [Spec.Stage.eval, sub_mul, Finset.sum_sub_distrib]
    ring
  rw [e]
  refine (abs_add_le _ _).trans (add_le_add ?_ (hs i))
  calc |∑ j, (M' i j - M i j) * v j| ≤ ∑ j, |(M' i j - M i j) * v j| := Finset.abs_sum_le_sum_abs _ _
    _ ≤ ∑ j, |M' i j - M i j| * B := Finset.sum_le_sum fun j _ => by
      rw [abs_mul]; exact mul_le_mul_of_nonneg_left (hv j) (abs_nonneg _)
    _ = (∑ j, |M' i j - M i j|) * B := by rw [Finset.sum_mul]
    _ ≤ _ := mul_le_mul_of_nonneg_right (hM i) hB

theorem row_near {M M' : Fin 3 → Fin 3 → K} {N : K} (hM : ∀ i, ∑ j, |M i j| ≤ N) (h : ∀ i j, |M' i j - M i j| ≤ Spec.storeError |M i j|) (i : Fin 3) :
    ∑ j, |M' i j - M i j| ≤ 3 / 10 ^ 9 + N / 2 ^ 24 ∧ ∑ j, |M' i j| ≤ N + (3 / 10 ^ 9 + N / 2 ^ 24) := by
  have h1 : ∑ j, |M' i j - M i j| ≤ 3 / 10 ^ 9 + N / 2 ^ 24 := by
    calc ∑ j, |M' i j - M i j| ≤ ∑ j, Spec.storeError |M i j| := Finset.sum_le_sum fun j _ => h i j
      _ = 3 / 10 ^ 9 + (∑ j, |M i j|) / 2 ^ 24 := by
        simp only [Spec.storeError, Fin.sum_univ_three]; ring
      _ ≤ _ := by
        have := div_le_div_of_nonneg_right (hM i) (by positivity : (0 : K) ≤ 2 ^ 24)
        linarith
  refine ⟨h1, ?_⟩
  calc ∑ j, |M' i j| ≤ ∑ j, (|M i j| + |M' i j - M i j|) := Finset.sum_le_sum fun j _ => by
        have := abs_add_le (M i j) (M' i j - M i j)
        rwa [add_sub_cancel] at this
    _ = ∑ j, |M i j| + ∑ j, |M' i j - M i j| := Finset.sum_add_distrib
    _ ≤ _ := add_le_add (hM i) h1

/-- A node that is close to a stage runs close to it. -/
theorem Runs.near {f : List (Flt K) → Py (Res K)} {s s' : Spec.Stage K} {B e δ B' : K} (h : Runs f s' B e B')
    (hn : ∀ v : Fin 3 → K, (∀ i, |v i| ≤ B) → ∀ i, |s'.eval v i - s.eval v i| ≤ δ) : Runs f s B (e + δ) B' := by
  intro pixels hp
  obtain ⟨r, g, h1, h2, h3⟩ := h pixels hp
  refine ⟨r, g, h1, h2, fun p hp' => ⟨(h3 p hp').1, fun i => ?_⟩⟩
  have k1 := (h3 p hp').2 i
  have k2 := hn p (fun i => (hp p hp' i).2) i
  have := abs_add_le (g p i - s'.eval p i) (s'.eval p i - s.eval p i)
  rw [sub_add_sub_cancel] at this
  linarith

theorem abs_entry_le {M : Fin 3 → Fin 3 → K} {N : K} (hM : ∀ i, ∑ j, |M i j| ≤ N) (i j : Fin 3) : |M i j| ≤ N :=
  (Finset.single_le_sum (f := fun j => |M i j|) (fun _ _ => abs_nonneg _) (Finset.mem_univ j)).trans (hM i)

/-- One node, written and read. -/
theorem runs_stored {A : Arith K} (hA : ∀ x, A.f32 x = single.round x) {E : Evaluator K} (hE : E.rounding = ieee)
    (ht : ∀ b, E.table b = half ∨ E.table b = single ∨ E.table b = double) (compat : ℕ) {n n' : Node K} {s : Spec.Stage K} (h : Drawn n s)
    (hs : Spec.SameNode A n n') {B l e B' : K} (hg : Spec.StoredGauge s B l e B') : Runs (n'.processR E compat 3) s B e B' := by
  cases h with
  | @matrix b M a hm ha hd =>
    cases hs with
    | @leaf _ k' _ b' hk hb =>
      cases (show k' = .matrix from hk)
      cases hg with
      | @linear _ _ _ N T N' T' hM hs0 hN hT hN' hT' hB =>
        obtain ⟨a0, rest, e1, e2, e3⟩ := hm.array
        rw [ha] at e1
        cases e1
        obtain ⟨a', ha', hsa⟩ := sameBase_array hb ha
        have hv := decimal_values hsa hd
        rw [e3] at hv
        obtain ⟨W0, hW0, hnear⟩ := rowMajor_inv hv
        choose W hW hWs hWd using fun i j => tableValue_single hA (hnear i j) ((abs_entry_le hM i j).trans hN)
        have hi : Implements E (.leaf .matrix b') (.linear W fun _ => 0) := by
          refine .matrix ⟨by rw [same_attr hb]; exact hm.inDepth, by rw [same_attr hb]; exact hm.outDepth, a', rest, ha', by rw [hsa.1, e2], ?_⟩ (ht b')
          rw [hW0]
          congr 1
          funext i j
          exact hW i j
        have hT0 : 0 ≤ T := (abs_nonneg _).trans (hs0 0)
        have hTT : T ≤ T' := by rw [hT']; exact le_add_of_nonneg_right (storeError_nonneg hT0)
        refine Runs.near (runs_node hE compat hi (.linear (N := N') (T := T') ?_ ?_ hB)) ?_
        · intro i; rw [hN']; exact (row_near hM hWd i).2
        · intro i; rw [abs_zero]; exact hT0.trans hTT
        · intro v hv i
          refine linear_near (fun i => ?_) (fun i => ?_) hv i
          · rw [hN', add_sub_cancel_left]; exact (row_near hM hWd i).1
          · rw [sub_self, abs_zero]; exact sub_nonneg.mpr hTT
  | @affine b M t a hm ha hd =>
    cases hs with
    | @leaf _ k' _ b' hk hb =>
      cases (show k' = .matrix from hk)
      cases hg with
      | @linear _ _ _ N T N' T' hM hs0 hN hT hN' hT' hB =>
        obtain ⟨a0, rest, e1, e2, e3⟩ := hm.array
        rw [ha] at e1
        cases e1
        obtain ⟨a', ha', hsa⟩ := sameBase_array hb ha
        have hv := decimal_values hsa hd
        rw [e3] at hv
        obtain ⟨W0, u0, hW0, hnear, hnear'⟩ := rowMajorAug_inv hv
        choose W hW hWs hWd using fun i j => tableValue_single hA (hnear i j) ((abs_entry_le hM i j).trans hN)
        choose u hu hus hud using fun i => tableValue_single hA (hnear' i) ((hs0 i).trans hT)
        have hi : Implements E (.leaf .matrix b') (.linear W u) := by
          refine .affine ⟨by rw [same_attr hb]; exact hm.inDepth, by rw [same_attr hb]; exact hm.outDepth, a', rest, ha', by rw [hsa.1, e2], ?_⟩ (ht b')
          rw [hW0]
          congr 1
          · funext i j
            exact hW i j
          · funext i
            exact hu i
        refine Runs.near (runs_node hE compat hi (.linear (N := N') (T := T') ?_ ?_ hB)) ?_
        · intro i; rw [hN']; exact (row_near hM hWd i).2
        · intro i; rw [hT']; exact size_near (hs0 i) ((hud i).trans (storeError_mono (hs0 i)))
        · intro v hv i
          refine linear_near (fun i => ?_) (fun i => ?_) hv i
          · rw [hN', add_sub_cancel_left]; exact (row_near hM hWd i).1
          · rw [hT', add_sub_cancel_left]; exact (hud i).trans (storeError_mono (hs0 i))
  | @lut1d b din a m c V hn hT hd hm0 hm =>
    cases hs with
    | @leaf _ k' _ b' hk hb =>
      cases (show k' = .lut1d from hk)
      cases hg with
      | @curves _ _ J C J' C' _ _ hJ hC hC0 hJ' hC' =>
        obtain ⟨a', ha', hsa⟩ := sameBase_array hb hn.array
        have hn' : PlainLut b' din a' :=
          ⟨by rw [same_attr hb]; exact hn.inDepth, by rw [same_attr hb]; exact hn.outDepth,
            by rw [styleOf_twin (same_attr hb _)]; exact hn.linear,
            by rw [flag_twin (same_attr hb _)]; exact hn.noHalf, sameBase_maps hb hn.noMaps, ha'⟩
        have hv := decimal_values hsa hd
        rw [hT.values] at hv
        obtain ⟨W0, hW0, hnear⟩ := rowMajor_inv hv
        have hC2 : ∀ i j, |V i j| ≤ C := by
          intro i j
          rcases hT.columns with rfl | rfl
          · have : |V i (Spec.column 0 0)| ≤ C := hC 0 i
            rwa [show Spec.column 0 0 = j by apply Fin.ext; have := j.2; omega] at this
          · have : |V i (Spec.column 2 (j : ℕ))| ≤ C := hC j i
            rwa [show Spec.column 2 (j : ℕ) = j by fin_cases j <;> rfl] at this
        choose W hW hWs hWd using fun i j => tableValue_single hA (hnear i j) ((hC2 i j).trans hC0)
        have hWd' : ∀ i j, |W i j - V i j| ≤ Spec.storeError C := fun i j => (hWd i j).trans (storeError_mono (hC2 i j))
        have hT' : Table1D a' W := by
          refine ⟨?_, ?_, hT.columns⟩
          · obtain ⟨rest, hr⟩ := hT.dims
            exact ⟨rest, by rw [hsa.1, hr]⟩
          · rw [hW0]
            congr 1
            funext i j
            exact hW i j
        refine Runs.near (runs_node hE compat (.lut1d hn' hT' hWs hm0 hm) (.curves (J := J') (C := B') ?_ ?_)) ?_
        · intro i; rw [hJ']; exact steps_near (hJ i) fun k => hWd' k _
        · intro i k; rw [hC']; exact size_near (hC i k) (hWd' k _)
        · intro v hv i
          simp only [Spec.Stage.eval, polyline_eq]
          exact lerpRow_near (fun k => hWd' k _) _
  | @lut3d b din a m V hn hT hd hm0 hm =>
    cases hs with
    | @leaf _ k' _ b' hk hb =>
      cases (show k' = .lut3d from hk)
      cases hg with
      | @cube _ _ J C J' C' _ _ hr hg' hb' hC hC0 hJ' hC' =>
        obtain ⟨a', ha', hsa⟩ := sameBase_array hb hn.array
        have hn' : PlainLut3 b' din (.str "trilinear") a' :=
          ⟨by rw [same_attr hb]; exact hn.inDepth, by rw [same_attr hb]; exact hn.outDepth,
            by rw [styleOf_twin (same_attr hb _)]; exact hn.style, sameBase_maps hb hn.noMaps, ha'⟩
        have hv := decimal_values hsa hd
        rw [hT.values] at hv
        obtain ⟨W0, hW0, hnear⟩ := cube_inv hv
        choose W hW hWs hWd using fun i j k ch => tableValue_single hA (hnear i j k ch) ((hC ch i j k).trans hC0)
        have hWd' : ∀ i j k ch, |W i j k ch - V i j k ch| ≤ Spec.storeError C := fun i j k ch => (hWd i j k ch).trans (storeError_mono (hC ch i j k))
        have hT' : Table3D a' W := by
          refine ⟨?_, ?_⟩
          · obtain ⟨rest, hr⟩ := hT.dims
            exact ⟨rest, by rw [hsa.1, hr]⟩
          · rw [hW0]
            congr 1
            funext i j k ch
            exact hW i j k ch
        refine Runs.near (runs_node hE compat (.lut3d hn' hT' hWs hm0 hm) (.cube (J := J') (C := B') ?_ ?_ ?_ ?_)) ?_
        · intro i g b; rw [hJ']; exact steps_near (hr i g b) fun k => hWd' _ _ _ _
        · intro i g b; rw [hJ']; exact steps_near (hg' i g b) fun k => hWd' _ _ _ _
        · intro i g b; rw [hJ']; exact steps_near (hb' i g b) fun k => hWd' _ _ _ _
        · intro i r g b; rw [hC']; exact size_near (hC i r g b) (hWd' _ _ _ _)
        · intro v hv i
          simp only [Spec.Stage.eval, polyline_eq]
          exact lerpRow_near (fun r => lerpRow_near (fun g => lerpRow_near (fun b => hWd' r g b i) _) _) _
  | @tetra b din a m V hn hT hd hm0 hm =>
    cases hs with
    | @leaf _ k' _ b' hk hb =>
      cases (show k' = .lut3d from hk)
      cases hg with
      | @tetra _ _ J C J' C' _ _ hr hg' hb' hC hC0 hJ' hC' =>
        obtain ⟨a', ha', hsa⟩ := sameBase_array hb hn.array
        have hn' : PlainLut3 b' din (.str "tetrahedral") a' :=
          ⟨by rw [same_attr hb]; exact hn.inDepth, by rw [same_attr hb]; exact hn.outDepth,
            by rw [styleOf_twin (same_attr hb _)]; exact hn.style, sameBase_maps hb hn.noMaps, ha'⟩
        have hv := decimal_values hsa hd
        rw [hT.values] at hv
        obtain ⟨W0, hW0, hnear⟩ := cube_inv hv
        choose W hW hWs hWd using fun i j k ch => tableValue_single hA (hnear i j k ch) ((hC ch i j k).trans hC0)
        have hWd' : ∀ i j k ch, |W i j k ch - V i j k ch| ≤ Spec.storeError C := fun i j k ch => (hWd i j k ch).trans (storeError_mono (hC ch i j k))
        have hT' : Table3D a' W := by
          refine ⟨?_, ?_⟩
          · obtain ⟨rest, hr⟩ := hT.dims
            exact ⟨rest, by rw [hsa.1, hr]⟩
          · rw [hW0]
            congr 1
            funext i j k ch
            exact hW i j k ch
        refine Runs.near (runs_node hE compat (.tetra hn' hT' hWs hm0 hm) (.tetra (J := J') (C := B') ?_ ?_ ?_ ?_)) ?_
        · intro i g b; rw [hJ']; exact steps_near (hr i g b) fun k => hWd' _ _ _ _
        · intro i g b; rw [hJ']; exact steps_near (hg' i g b) fun k => hWd' _ _ _ _
        · intro i g b; rw [hJ']; exact steps_near (hb' i g b) fun k => hWd' _ _ _ _
        · intro i r g b; rw [hC']; exact size_near (hC i r g b) (hWd' _ _ _ _)
        · intro v hv i
          simp only [Spec.Stage.eval, simplicial_eq hm0]
          exact tetRow_near (fun r g b => hWd' r g b i) _ _ _
  | @range b din dout mi ma mo mx hf hcl hbd hd hi ho hx =>
    cases hs with
    | @leaf _ k' _ b' hk hb =>
      cases (show k' = .range from hk)
      cases hg
      have hval : ∀ (k : String) (x : K), b.values.get? k = some (.fin x) → Spec.Digits12 x → b'.values.get? k = some (.fin x) := by
        intro k x h1 h2
        have h3 := hb.2.1 k
        rw [h1] at h3
        generalize b'.values.get? k = o at h3
        cases h3 with
        | some h3 =>
          obtain ⟨w, rfl, -, h4⟩ := h3
          rw [h4 h2]
      have hf' : FullRange b' din dout mi ma mo B' :=
        ⟨by rw [same_attr hb]; exact hf.inDepth, by rw [same_attr hb]; exact hf.outDepth,
          hval _ _ hf.minIn (hx _ (by simp)), hval _ _ hf.maxIn (hx _ (by simp)), hval _ _ hf.minOut (hx _ (by simp)),
          hval _ _ hf.maxOut (hx _ (by simp))⟩
      have hcl' : Clamps b' := by
        unfold Clamps at hcl ⊢
        rw [same_attr hb]
        exact hcl
      exact runs_node hE compat (.range hf' hcl' hbd hd hi ho) .clamp

/-- The factor of a stage does not depend on storage. -/
theorem stored_lipschitz {s : Spec.Stage K} {B l e B' : K} (h : Spec.StoredGauge s B l e B') (hw : StageOk s) {d : K} {u v : Fin 3 → K}
    (huv : Off d u v) : Off (l * d) (s.eval u) (s.eval v) := by
  cases h with
  | linear hM hs hN hT =>
    exact stage_lipschitz (.linear (B := 0) hM hs (by rwa [mul_zero, zero_add])) hw huv
  | curves hJ hC => exact stage_lipschitz (.curves (B := 0) hJ hC) hw huv
  | cube hr hg hb hC => exact stage_lipschitz (.cube (B := 0) hr hg hb hC) hw huv
  | tetra hr hg hb hC => exact stage_lipschitz (.tetra (B := 0) hr hg hb hC) hw huv
  | clamp => exact stage_lipschitz (.clamp (B := B)) hw huv

/-- Chains. -/
theorem runs_stored_chain {A : Arith K} (hA : ∀ x, A.f32 x = single.round x) {E : Evaluator K} (hE : E.rounding = ieee)
    (ht : ∀ b, E.table b = half ∨ E.table b = single ∨ E.table b = double) (compat : ℕ) {ns : List (Node K)} {ss : List (Spec.Stage K)}
    (h : List.Forall₂ Drawn ns ss) {ns' : List (Node K)} (hsame : List.Forall₂ (Spec.SameNode A) ns ns')
    (hby : ∀ n ∈ ns', n.attr "bypass" = none) {B e e' : K} (hb : Spec.StoredBudget ss B e e')
    (prev : Option Depth) {α : Type} (items : List α) (u v : α → Fin 3 → K) (hu : ∀ x ∈ items, Small B (u x) ∧ Off e (u x) (v x))
    (arg : List (Flt K)) (same : Bool) :
    ∃ (r : Res K) (g : α → Fin 3 → K),
      runNodesR E compat 3 false prev ns' ⟨Spec.rgb (items.map u), arg, same⟩ = .ok r ∧ r.out = Spec.rgb (items.map g) ∧
      ∀ x ∈ items, (∀ i, Spec.IsSingle (g x i)) ∧ Off e' (g x) (Spec.evalChain ss (v x)) := by
  induction h generalizing B e u v prev arg same ns' with
  | nil =>
    cases hsame
    cases hb
    refine ⟨_, u, by rw [runNodesR], rfl, fun x hx => ⟨fun i => ((hu x hx).1 i).1, (hu x hx).2⟩⟩
  | @cons n s ns ss hn hrest ih =>
    cases hsame with
    | @cons _ n' _ ns' hs1 hs2 =>
    cases hb with
    | @cons _ _ _ _ l d B' _ hg hbs =>
      obtain ⟨r, g, h1, h2, h3⟩ := runs_stored hA hE ht compat hn hs1 hg (items.map u) (by
        intro p hp
        obtain ⟨x, hx, rfl⟩ := List.mem_map.mp hp
        exact (hu x hx).1)
      have hnb : n'.attr "bypass" = none := hby n' (by simp)
      rw [List.map_map] at h2
      obtain ⟨r', g', k1, k2, k3⟩ := ih hs2 (fun n' hn' => hby n' (by simp [hn'])) hbs (some n'.outDepth) (fun x => g (u x)) (fun x => s.eval (v x))
        (fun x hx => by
          obtain ⟨a1, a2⟩ := h3 (u x) (List.mem_map.mpr ⟨x, hx, rfl⟩)
          refine ⟨a1, fun i => ?_⟩
          have b1 := a2 i
          have b2 := stored_lipschitz hg hn.wf (hu x hx).2 i
          have e : g (u x) i - s.eval (v x) i = (g (u x) i - s.eval (u x) i) + (s.eval (u x) i - s.eval (v x) i) := by ring
          rw [e]
          exact (abs_add_le _ _).trans (add_le_add b1 b2))
        (if same then r.arg else arg) (same && r.same)
      refine ⟨r', g', ?_, k2, k3⟩
      rw [← k1]
      conv_lhs => unfold runNodesR
      simp only [hnb, Option.isNone_none, Bool.true_or, if_true, h1, py_ok_bind, py_pure, Res.step, h2]
      rfl

theorem Drawn.bypass {A : Arith K} {n n' : Node K} {s : Spec.Stage K} (h : Drawn n s) (hs : Spec.SameNode A n n') :
    n'.attr "bypass" = n.attr "bypass" := by
  cases h <;> (cases hs with | leaf _ hb => exact same_attr hb _)

/-- C134: a list of Range, Matrix, LUT1D and LUT3D nodes with any numbers in the tables, written to a file and read back, evaluated in
IEEE arithmetic on pixels of `float32` numbers.  The result is off from the composition of the maps of the original nodes by no
more than what storage and evaluation of each node add, magnified by the steepness of the nodes after it. -/
theorem C134_stored (A : Arith K) (hA : ∀ x, A.f32 x = single.round x) (E : Evaluator K) (hE : E.rounding = ieee)
    (ht : ∀ b, E.table b = half ∨ E.table b = single ∨ E.table b = double) (compat : ℕ) (load : String → Py (Option (List (Node K))))
    (l : PList K) (hl : Spec.StorableList compat load l) (gzip : Bool) (f : File) (hf : l.writeFile compat false gzip = .ok f)
    (ss : List (Spec.Stage K)) (h : List.Forall₂ Drawn l.processes ss) (hby : ∀ n ∈ l.processes, n.attr "bypass" = none) (B e : K)
    (hb : Spec.StoredBudget ss B 0 e) :
    ∃ l', readContents compat (readList A compat load false) f = .ok l' ∧
      ∀ pixels : List (Fin 3 → K), (∀ p ∈ pixels, ∀ i, Spec.IsSingle (p i) ∧ |p i| ≤ B) →
      ∃ g : (Fin 3 → K) → Fin 3 → K, processListR E compat l'.processes (Spec.rgb pixels) 3 = .ok (Spec.rgb (pixels.map g)) ∧
        ∀ p ∈ pixels, ∀ i, Spec.IsSingle (g p i) ∧ |g p i - Spec.evalChain ss p i| ≤ e := by
  obtain ⟨l', h1, -, -, -, h2⟩ := C50_file_partial A compat load l hl gzip f hf
  refine ⟨l', h1, fun pixels hp => ?_⟩
  have hby' : ∀ n ∈ l'.processes, n.attr "bypass" = none := by
    generalize l'.processes = ns' at h2
    generalize l.processes = ns at h2 h hby
    clear h1 hf hl hb
    induction h2 generalizing ss with
    | nil => simp
    | @cons n n' ns ns' hs _ ih =>
      cases h with
      | cons hn hrest =>
        intro x hx
        rcases List.mem_cons.mp hx with rfl | hx
        · rw [hn.bypass hs]; exact hby n (by simp)
        · exact ih _ hrest (fun n hn => hby n (by simp [hn])) x hx
  obtain ⟨r, g, k1, k2, k3⟩ := runs_stored_chain hA hE ht compat h h2 hby' hb none pixels id id
    (fun p hp' => ⟨hp p hp', fun i => by simp⟩) (Spec.rgb pixels) true
  refine ⟨g, ?_, fun p hp' i => ⟨(k3 p hp').1 i, (k3 p hp').2 i⟩⟩
  unfold processListR
  rw [List.map_id] at k1
  rw [hE, copy_rgb pixels fun p hp' i => (hp p hp' i).1]
  simp only [k1, py_ok_bind, py_pure, k2]

/-! ### An instance -/

/-- Clamps to [0, 1]. -/
def keptRange : Base ℚ where
  attrs := [("inBitDepth", .str "32f"), ("outBitDepth", .str "32f"), ("id", .str ""), ("name", .str "")]
  values := [("minInValue", .fin 0), ("maxInValue", .fin 1), ("minOutValue", .fin 0), ("maxOutValue", .fin 1)]

/-- Takes a third of each channel. -/
def thirdMatrix (_ _ : Fin 3) : ℚ := 1 / 3

def thirdNode : Base ℚ where
  attrs := [("inBitDepth", .str "32f"), ("outBitDepth", .str "32f"), ("id", .str ""), ("name", .str "")]
  elements := [.array { dims := [3, 3], values := Spec.rowMajor fun i j => .fin (thirdMatrix i j) }]

/-- A curve through 0, 1/7, 4/7. -/
def seventhTable (k : Fin 3) (_ : Fin 1) : ℚ := ((k : ℕ) : ℚ) ^ 2 / 7

def seventhNode : Base ℚ where
  attrs := [("inBitDepth", .str "32f"), ("outBitDepth", .str "32f"), ("id", .str ""), ("name", .str ""), ("interpolation", .str "linear")]
  elements := [.array { dims := [3, 1], values := Spec.rowMajor fun i j => .fin (seventhTable i j) }]

def keptList : PList ℚ where
  processes := [.leaf .range keptRange, .leaf .matrix thirdNode, .leaf .lut1d seventhNode]

def keptStages : List (Spec.Stage ℚ) :=
  [.clamp 0 1 0 1, .linear thirdMatrix fun _ => 0, .curves 1 2 fun ch k => seventhTable k (Spec.column 0 ch)]

theorem keptList_drawn : List.Forall₂ Drawn keptList.processes keptStages := by
  have h0 : Spec.PixelNumber (.str "32f") (0 : ℚ) := .inr ⟨rfl, unitNumber_single 0 (.inl rfl)⟩
  have h1 : Spec.PixelNumber (.str "32f") (1 : ℚ) := .inr ⟨rfl, unitNumber_single 1 (.inr rfl)⟩
  refine .cons ?_ (.cons ?_ (.cons ?_ .nil))
  · refine .range (din := .str "32f") (dout := .str "32f") (by constructor <;> rfl) (.inl rfl)
      ⟨h0, h1, h0, h1, zero_lt_one, zero_le_one⟩ rfl le_rfl le_rfl ?_
    simp only [List.mem_cons, List.not_mem_nil, or_false]
    rintro x (rfl | rfl | rfl | rfl)
    · exact ⟨0, 0, by norm_num, .inl (by norm_num)⟩
    · exact ⟨1, 0, by norm_num, .inl (by norm_num)⟩
    · exact ⟨0, 0, by norm_num, .inl (by norm_num)⟩
    · exact ⟨1, 0, by norm_num, .inl (by norm_num)⟩
  · exact .matrix ⟨rfl, rfl, _, [], rfl, rfl, rfl⟩ rfl ⟨rfl, rfl⟩
  · exact .lut1d (din := .str "32f") ⟨rfl, rfl, by decide, rfl, rfl, rfl⟩ ⟨⟨[], rfl⟩, rfl, .inl rfl⟩ ⟨rfl, rfl⟩ (by norm_num) (by norm_num)

theorem keptList_storable (compat : ℕ) (load : String → Py (Option (List (Node ℚ)))) : Spec.StorableList compat load keptList := by
  refine ⟨List.nodup_nil, by simp [keptList], rfl, by simp [keptList], ?_⟩
  simp only [keptList, List.mem_cons, List.not_mem_nil, or_false]
  rintro n (rfl | rfl | rfl)
  · refine .leaf trivial ?_ (.inr ⟨rfl, ?_, ?_⟩) (.inl rfl) ?_
    · simp [Spec.AttrsOk, Spec.keysOf, Spec.commonKeys, keptRange]
    · simp [keptRange]
    · simp [keptRange]
    · simp [keptRange]
  · refine .leaf trivial ?_ (.inl rfl) (.inl rfl) ?_
    · simp [Spec.AttrsOk, Spec.keysOf, Spec.commonKeys, thirdNode]
    · simp only [thirdNode, List.mem_cons, List.not_mem_nil, or_false, forall_eq]
      refine .inr (.inl ⟨.inl rfl, _, rfl, ?_, by simp, ⟨3, rfl, ?_⟩, .inl rfl⟩)
      · simp [Spec.IntegerOut, Dict.get?]
      · rw [rowMajor_length]; norm_num
  · refine .leaf trivial ?_ (.inl rfl) (.inl rfl) ?_
    · simp [Spec.AttrsOk, Spec.keysOf, Spec.commonKeys, seventhNode]
    · simp only [seventhNode, List.mem_cons, List.not_mem_nil, or_false, forall_eq]
      refine .inr (.inr (.inl ⟨rfl, _, rfl, ?_, ?_, ⟨1, rfl, one_dvd _⟩, .inl rfl⟩))
      · simp [Spec.IntegerOut, Dict.get?]
      · simp [Spec.Flagged, Dict.get?]

theorem keptList_writes (compat : ℕ) : ∃ f, keptList.writeFile compat false false = .ok f := by
  refine writeFile_exists compat _ (by simp [keptList]) ?_
  simp only [keptList, List.mem_cons, List.not_mem_nil, or_false]
  rintro n (rfl | rfl | rfl)
  · exact leaf_writes _ _ _ (by simp [keptRange])
  · refine leaf_writes _ _ _ ?_
    simp only [thirdNode, List.mem_cons, List.not_mem_nil, or_false, forall_eq]
    exact array_writes _ _ 3 rfl rfl rfl rfl (by norm_num)
  · refine leaf_writes _ _ _ ?_
    simp only [seventhNode, List.mem_cons, List.not_mem_nil, or_false, forall_eq]
    exact array_writes _ _ 1 rfl rfl rfl rfl (by norm_num)

theorem kept_budget : ∃ e ≤ (1 : ℚ) / 10 ^ 5, Spec.StoredBudget keptStages 1000 0 e := by
  refine ⟨_, ?_, .cons .clamp (.cons (.linear (N := 1) (T := 0) ?_ ?_ (by norm_num) (by norm_num) rfl rfl ?_)
    (.cons (.curves (J := 3 / 7) (C := 4 / 7) ?_ ?_ (by norm_num) rfl rfl) .nil))⟩
  · norm_num [Spec.storeError]
  · decide +kernel
  · simp
  · norm_num [Spec.storeError]
  · intro i k hk
    obtain rfl | rfl : k = 0 ∨ k = 1 := by omega
    · norm_num [seventhTable]
    · norm_num [seventhTable]
  · decide +kernel

/-- A list with thirds and sevenths, written and read back: the result is right up to 1/100000, on all pixels of `float32` numbers up to
1000. -/
example (lib : Arith ℚ) (load : String → Py (Option (List (Node ℚ)))) :
    ∃ (f : File) (l' : PList ℚ), keptList.writeFile 0 false false = .ok f ∧ readContents 0 (readList storedArith 0 load false) f = .ok l' ∧
      ∀ pixels : List (Fin 3 → ℚ), (∀ p ∈ pixels, ∀ i, Spec.IsSingle (p i) ∧ |p i| ≤ 1000) →
      ∃ g : (Fin 3 → ℚ) → Fin 3 → ℚ, processListR ⟨ieee, fun _ => single, lib⟩ 0 l'.processes (Spec.rgb pixels) 3
          = .ok (Spec.rgb (pixels.map g)) ∧
        ∀ p ∈ pixels, ∀ i, Spec.IsSingle (g p i) ∧ |g p i - Spec.evalChain keptStages p i| ≤ 1 / 10 ^ 5 := by
  obtain ⟨f, hf⟩ := keptList_writes 0
  obtain ⟨e, he, hb⟩ := kept_budget
  obtain ⟨l', h1, h2⟩ := C134_stored storedArith (fun _ => rfl) ⟨ieee, fun _ => single, lib⟩ rfl (fun _ => .inr (.inl rfl)) 0 load keptList
    (keptList_storable _ _) false f hf keptStages keptList_drawn
    (by simp only [keptList, List.mem_cons, List.not_mem_nil, or_false]; rintro n (rfl | rfl | rfl) <;> rfl) 1000 e hb
  refine ⟨f, l', hf, h1, fun pixels hp => ?_⟩
  obtain ⟨g, h3, h4⟩ := h2 pixels hp
  exact ⟨g, h3, fun p hp' i => ⟨(h4 p hp' i).1, ((h4 p hp' i).2).trans he⟩⟩

end CLF
