import Verif.Lemmas.OpenGrade
import Verif.Props.MappedList

/-! # Property C154: the CDL style without clamping, in IEEE arithmetic and inside lists -/

set_option linter.unusedSectionVars false

namespace CLF

variable {K : Type} [Field K] [LinearOrder K] [IsStrictOrderedRing K] [FloorRing K]

/-- C154: a CDL node of style `FwdNoClamp` (or `noClampFwd`) on pixels of `float32` numbers up to `B` in size, with further channels.  It
never fails; the colours are finite `float32` numbers, off from slope, offset, curve and saturation of the exact ones by what the curves
make of `D`, which is the rounding before them, and a millionth of the largest value `C`; other channels stay. -/
theorem C154_node (L : Arith K) (compat : ℕ) (v : CdlValues K) (b : Base K) (din dout st : AVal) (s o p : Fin 3 → K) (ψ : Fin 3 → K → K) (σ : K)
    (hst1 : st = .str "FwdNoClamp" ∨ (st = .str "noClampFwd" ∧ hasFeature compat autodesk = true)) (h : StyledNode b din dout st)
    (hv : CdlIs v s o p σ) (B N O Z D E C δ : K) (hs : ∀ i, |s i| ≤ N) (ho : ∀ i, |o i| ≤ O) (hN : N ≤ 2 ^ 120)
    (hL : ∀ i, Spec.OpenPower L (p i) (ψ i) Z δ) (hψ : ∀ i, Spec.OpenModulus (ψ i) Z D E C)
    (hD : (N * (B / Spec.fullScale (some din)) + O) / 2 ^ 23 + (N + 1) * 2 ^ (-146 : ℤ) ≤ D)
    (hZ : N * (B / Spec.fullScale (some din)) + O + D ≤ Z) (hZC : Z ≤ C) (h1C : 1 ≤ C) (hEC : E ≤ C) (hδ : δ ≤ C / 2 ^ 40)
    (hC : (|1 - σ| + |σ|) * C ≤ 2 ^ 95)
    (stride : ℕ) (pixels : List ((Fin 3 → K) × List (Flt K))) (hst : ∀ q ∈ pixels, q.2.length + 3 = stride) (hs3 : 3 ≤ stride)
    (hpx : ∀ q ∈ pixels, ∀ i, Spec.IsSingle (q.1 i) ∧ |q.1 i| ≤ B) :
    ∃ (r : Res K) (g : (Fin 3 → K) → Fin 3 → K), cdlProcessR ieee L compat v b (Spec.image pixels) stride = .ok r ∧
      r.out = Spec.image (pixels.map fun q => (g q.1, q.2)) ∧
      ∀ q ∈ pixels, ∀ i, Spec.IsSingle (g q.1 i) ∧
        |g q.1 i - Spec.openGrade (Spec.fullScale (some din)) (Spec.fullScale (some dout)) s o ψ σ q.1 i|
          ≤ Spec.fullScale (some dout) * ((|1 - σ| + |σ|) * (E + C / 2 ^ 20)) := by
  have hS := fullScale_pos (K := K) (some din)
  have key : ∀ x : Fin 3 → K, ∃ out : Fin 3 → K, Small B x →
      (∀ rest, cdlFwdNoClampR ieee L (finCdl s o p σ) (some din) (some dout) (Spec.fins x ++ rest) = .ok (Spec.fins out ++ rest)) ∧
      ∀ i, Spec.IsSingle (out i) ∧ |out i - Spec.openGrade (Spec.fullScale (some din)) (Spec.fullScale (some dout)) s o ψ σ x i|
          ≤ Spec.fullScale (some dout) * ((|1 - σ| + |σ|) * (E + C / 2 ^ 20)) := by
    intro x
    by_cases hx : Small B x
    · obtain ⟨out, h1, h2⟩ := cdlFwdNoClamp_near L (some din) (some dout) hs ho hL hψ hN hD hZ hZC h1C hEC hδ hC (fun i => (hx i).1) (fun i => by
        rw [abs_div, abs_of_pos hS]
        exact div_le_div_of_nonneg_right (hx i).2 hS.le)
      exact ⟨out, fun _ => ⟨h1, h2⟩⟩
    · exact ⟨fun _ => 0, fun h => absurd h hx⟩
  choose F hF using key
  obtain ⟨r, h1, h2⟩ := cdlR_image ieee L compat v b din dout st h (by
      rcases hst1 with rfl | ⟨rfl, ha⟩
      · exact .inr (by decide)
      · exact .inl ha) stride pixels hst hs3 F (by
      intro q hq
      have e : cdlPixelR ieee L st v.resolve (some din) (some dout) (Spec.fins q.1 ++ q.2)
          = cdlFwdNoClampR ieee L v.resolve (some din) (some dout) (Spec.fins q.1 ++ q.2) := by
        unfold cdlPixelR
        rcases hst1 with rfl | ⟨rfl, -⟩
        · rw [if_neg (by decide), if_pos (.inl rfl)]
        · rw [if_neg (by decide), if_pos (.inr rfl)]
      rw [e, hv.resolve]
      exact (hF q.1 (hpx q hq)).1 q.2)
  exact ⟨r, F, h1, h2, fun q hq => (hF q.1 (hpx q hq)).2⟩

/-- Curves that change distances by a bounded factor. -/
theorem tone_modulus {ψ : K → K} {Z k C : K} (h : Spec.ToneBounds ψ Z k C) (D : K) : Spec.OpenModulus ψ Z D (k * D) C :=
  ⟨h.size, fun x y hx hy e => (h.close x y hx hy).trans (mul_le_mul_of_nonneg_left e h.nonneg)⟩

/-- How far the exact operation takes colours, and how close it keeps them. -/
theorem openGrade_bounds {S T B N O Z k C σ : K} (hS : 0 < S) (hT : 0 < T) {s o : Fin 3 → K} {ψ : Fin 3 → K → K} (hs : ∀ i, |s i| ≤ N)
    (ho : ∀ i, |o i| ≤ O) (hψ : ∀ i, Spec.ToneBounds (ψ i) Z k C) (hZ : N * (B / S) + O ≤ Z) :
    Spec.MapBounds (Spec.openGrade S T s o ψ σ) B (T * ((|1 - σ| + |σ|) * (k * (N / S)))) (T * ((|1 - σ| + |σ|) * C)) := by
  have hN0 : 0 ≤ N := (abs_nonneg _).trans (hs 0)
  have hk := (hψ 0).nonneg
  obtain ⟨g1, -, -⟩ := gain_bounds σ
  have hg0 : 0 ≤ |1 - σ| + |σ| := by linarith
  have aZ : ∀ u : Fin 3 → K, (∀ j, |u j| ≤ B) → ∀ i, |u i / S * s i + o i| ≤ Z := fun u hu i => by
    refine ((abs_add_le _ _).trans (add_le_add ?_ (ho i))).trans hZ
    rw [abs_mul, mul_comm, abs_div, abs_of_pos hS]
    exact mul_le_mul (hs i) (div_le_div_of_nonneg_right (hu i) hS.le) (by positivity) hN0
  refine ⟨by positivity, fun u hu i => ?_, fun u v hu hv d hd i => ?_⟩
  · have h1 : ∀ j, |Spec.openGraded S s o ψ u j| ≤ C := fun j => (hψ j).size _ (aZ u hu j)
    have h2 := saturate_close (σ := σ) (y := Spec.openGraded S s o ψ u) (w := fun _ => 0) (e := C) (by simpa using h1) i
    unfold Spec.openGrade
    rw [abs_mul, abs_of_pos hT, mul_comm]
    refine mul_le_mul_of_nonneg_left ?_ hT.le
    simpa [Spec.luma] using h2
  · have h1 : ∀ j, |Spec.openGraded S s o ψ u j - Spec.openGraded S s o ψ v j| ≤ k * (N / S * d) := fun j => by
      refine ((hψ j).close _ _ (aZ u hu j) (aZ v hv j)).trans (mul_le_mul_of_nonneg_left ?_ hk)
      rw [add_sub_add_right_eq_sub, ← sub_mul, ← sub_div, abs_mul, abs_div, abs_of_pos hS]
      refine (mul_le_mul (div_le_div_of_nonneg_right (hd j) hS.le) (hs j) (abs_nonneg _)
        (div_nonneg ((abs_nonneg _).trans (hd j)) hS.le)).trans_eq (by ring)
    have h2 := saturate_close (σ := σ) h1 i
    unfold Spec.openGrade
    rw [← sub_mul, abs_mul, abs_of_pos hT, mul_comm]
    exact (mul_le_mul_of_nonneg_left h2 hT.le).trans_eq (by ring)

/-- C154: such nodes can stand anywhere in a list: by `C148_list` the list is as accurate as its stages allow. -/
theorem C154_list (E : Evaluator K) (hE : E.rounding = ieee) {ns : Bool} {v : CdlValues K} {b : Base K} {din dout : AVal} {s o p : Fin 3 → K}
    {ψ : Fin 3 → K → K} {σ B N O Z D k C δ : K} (h : StyledNode b din dout (.str "FwdNoClamp")) (hv : CdlIs v s o p σ) (hs : ∀ i, |s i| ≤ N)
    (ho : ∀ i, |o i| ≤ O) (hN : N ≤ 2 ^ 120) (hL : ∀ i, Spec.OpenPower E.library (p i) (ψ i) Z δ) (hψ : ∀ i, Spec.ToneBounds (ψ i) Z k C)
    (hD : (N * (B / Spec.fullScale (some din)) + O) / 2 ^ 23 + (N + 1) * 2 ^ (-146 : ℤ) ≤ D)
    (hZ : N * (B / Spec.fullScale (some din)) + O + D ≤ Z) (hZC : Z ≤ C) (h1C : 1 ≤ C) (hkC : k * D ≤ C) (hδ : δ ≤ C / 2 ^ 40)
    (hC : (|1 - σ| + |σ|) * C ≤ 2 ^ 95) (hB : 0 ≤ B) {ε : K} (hε : ε = Spec.fullScale (some dout) * ((|1 - σ| + |σ|) * (k * D + C / 2 ^ 20)))
    {Φ : (Fin 3 → K) → Fin 3 → K} (hΦ : Φ = Spec.openGrade (Spec.fullScale (some din)) (Spec.fullScale (some dout)) s o ψ σ) :
    Implements E (.leaf (.cdl ns v) b) (.map B ε Φ) ∧
      ∀ B' ≤ B, Spec.Gauge (.map B ε Φ) B' (Spec.fullScale (some dout) * ((|1 - σ| + |σ|) * (k * (N / Spec.fullScale (some din))))) ε
        (Spec.fullScale (some dout) * ((|1 - σ| + |σ|) * C) + ε) := by
  have hS : (0 : K) < Spec.fullScale (some din) := fullScale_pos _
  have hT : (0 : K) < Spec.fullScale (some dout) := fullScale_pos _
  have hk := (hψ 0).nonneg
  have hN0 : 0 ≤ N := (abs_nonneg _).trans (hs 0)
  have hO0 : 0 ≤ O := (abs_nonneg _).trans (ho 0)
  have hD0 : 0 ≤ D := le_trans (by positivity) hD
  subst hΦ
  refine ⟨.map (by simp) hB (by rw [hε]; positivity) ?_, fun B' hB' => .map (openGrade_bounds hS hT hs ho hψ (by linarith)) hB'⟩
  intro compat pixels hp
  obtain ⟨r, g, h1, h2, h3⟩ := C154_node E.library compat v b din dout (.str "FwdNoClamp") s o p ψ σ (.inl rfl) h hv B N O Z D (k * D) C δ hs ho hN
    hL (fun i => tone_modulus (hψ i) D) hD hZ hZC h1C hkC hδ hC 3 (pixels.map fun p => (p, [])) (by simp) le_rfl (by
      intro q hq i
      obtain ⟨p, hp', rfl⟩ := List.mem_map.mp hq
      exact hp p hp' i)
  rw [rgb_image] at h1
  refine ⟨r, g, ?_, ?_, fun p hp' i => ?_⟩
  · simpa only [leafProcessR, hE] using h1
  · rw [h2, List.map_map, ← rgb_image, List.map_map]
    rfl
  · rw [hε]
    exact h3 (p, []) (List.mem_map.mpr ⟨p, hp', rfl⟩) i

/-! ## There and back -/

/-- A colour that slope and offset leave between 0 and 1, and that the style without clamping takes to at most `T'` in size. -/
structure Spec.Returnable (S T T' : K) (s o : Fin 3 → K) (ψ : Fin 3 → K → K) (σ : K) (x : Fin 3 → K) : Prop where
  graded : ∀ i, 0 ≤ x i / S * s i + o i ∧ x i / S * s i + o i ≤ 1
  size : ∀ i, |Spec.openGrade S T s o ψ σ x i| ≤ T'

/-- Without rounding, `RevNoClamp` undoes `FwdNoClamp`. -/
theorem reversedFree_openGrade {S T T' : K} (hS : 0 < S) (hT : 0 < T) {s o : Fin 3 → K} {ψ χ : Fin 3 → K → K} {σ : K} (hs : ∀ i, s i ≠ 0)
    (hσ : σ ≠ 0) (hinv : ∀ i x, 0 ≤ x → x ≤ 1 → 0 ≤ ψ i x ∧ ψ i x ≤ 1 ∧ χ i (ψ i x) = x) {x : Fin 3 → K}
    (hx : Spec.Returnable S T T' s o ψ σ x) (i : Fin 3) : Spec.reversedFree T S s o χ σ (Spec.openGrade S T s o ψ σ x) i = x i := by
  have e1 : (fun j => Spec.openGrade S T s o ψ σ x j / T) = fun j => Spec.luma (Spec.openGraded S s o ψ x)
      + σ * (Spec.openGraded S s o ψ x j - Spec.luma (Spec.openGraded S s o ψ x)) := by
    funext j
    unfold Spec.openGrade
    rw [mul_div_cancel_right₀ _ hT.ne']
  have hg := hx.graded i
  obtain ⟨y0, y1, y2⟩ := hinv i _ hg.1 hg.2
  have e4 : Spec.openGraded S s o ψ x i = ψ i (x i / S * s i + o i) := rfl
  generalize Spec.openGraded S s o ψ x = Y at *
  have e2 : Spec.luma (fun j => Spec.luma Y + σ * (Y j - Spec.luma Y)) = Spec.luma Y := by
    unfold Spec.luma
    ring
  have e3 : Spec.unsaturated (fun j => Spec.luma Y + σ * (Y j - Spec.luma Y)) σ i = Y i := by
    unfold Spec.unsaturated
    rw [e2]
    field_simp
    ring
  unfold Spec.reversedFree
  rw [e1, e3, e4, clip_of_mem y0 y1, y2, add_sub_cancel_right, mul_div_cancel_right₀ _ (hs i), div_mul_cancel₀ _ hS.ne']

/-- What comes in is off by little: so is what `RevNoClamp` makes of it. -/
theorem reversedFree_close {S T : K} (hS : 0 < S) (hT : 0 < T) {s o : Fin 3 → K} {χ : Fin 3 → K → K} {σ m d E : K} (hm0 : 0 < m)
    (hm : ∀ i, m ≤ |s i|) (hχ : ∀ i, Spec.Modulus (χ i) ((1 + 2 / |σ|) * (d / S)) E) {x y : Fin 3 → K} (hxy : ∀ i, |x i - y i| ≤ d) (i : Fin 3) :
    |Spec.reversedFree S T s o χ σ x i - Spec.reversedFree S T s o χ σ y i| ≤ T * (E / m) := by
  have h1 : ∀ j, |x j / S - y j / S| ≤ d / S := fun j => by
    rw [← sub_div, abs_div, abs_of_pos hS]
    exact div_le_div_of_nonneg_right (hxy j) hS.le
  have hd : 0 ≤ d / S := (abs_nonneg _).trans (h1 0)
  have h2 := saturate_close (σ := 1 / σ) h1 i
  have h3 : |Spec.unsaturated (fun j => x j / S) σ i - Spec.unsaturated (fun j => y j / S) σ i| ≤ (1 + 2 / |σ|) * (d / S) := by
    unfold Spec.unsaturated
    simp only [div_eq_mul_one_div (_ - _) σ, mul_comm (_ - _) (1 / σ)]
    refine h2.trans (mul_le_mul_of_nonneg_right ?_ hd)
    have h4 := abs_sub 1 (1 / σ)
    have h5 : 2 / |σ| = 2 * |1 / σ| := by rw [abs_div, abs_one]; ring
    rw [abs_one] at h4
    rw [h5]
    linarith
  have h6 := (hχ i).close _ _ (clip_mem _).1 (clip_mem _).2 (clip_mem _).1 (clip_mem _).2 ((clip_close _ _).trans h3)
  unfold Spec.reversedFree
  rw [← sub_mul, abs_mul, abs_of_pos hT, mul_comm, ← sub_div, sub_sub_sub_cancel_right, abs_div]
  exact mul_le_mul_of_nonneg_left (div_le_div₀ ((abs_nonneg _).trans h6) h6 hm0 (hm i)) hT.le

/-- C154: style `FwdNoClamp` and then style `RevNoClamp`, with the same parameters and depths swapped, in IEEE arithmetic: colours that
slope and offset leave between 0 and 1, and that come out a little below full scale, come back, up to an error that the moduli of the
curves give; other channels stay.  (`RevNoClamp` clips, so other colours do not come back even without rounding: `C29_roundtrip`.) -/
theorem C154_roundtrip (L : Arith K) (compat : ℕ) (v : CdlValues K) (bf br : Base K) (d1 d2 : AVal) (s o p : Fin 3 → K)
    (ψ χ : Fin 3 → K → K) (σ B N O Z D E C δ m η H : K) (hf : StyledNode bf d1 d2 (.str "FwdNoClamp")) (hb : StyledNode br d2 d1 (.str "RevNoClamp"))
    (hv : CdlIs v s o p σ) (hu : Spec.Undoable s o p σ O m) (hm : 1 / 2 ^ 60 ≤ m) (hs : ∀ i, |s i| ≤ N) (hN : N ≤ 2 ^ 120)
    (hL : ∀ i, Spec.OpenPower L (p i) (ψ i) Z δ) (hψ : ∀ i, Spec.OpenModulus (ψ i) Z D E C)
    (hD : (N * (B / Spec.fullScale (some d1)) + O) / 2 ^ 23 + (N + 1) * 2 ^ (-146 : ℤ) ≤ D)
    (hZ : N * (B / Spec.fullScale (some d1)) + O + D ≤ Z) (hZC : Z ≤ C) (h1C : 1 ≤ C) (hEC : E ≤ C) (hδ : δ ≤ C / 2 ^ 40)
    (hC : (|1 - σ| + |σ|) * C ≤ 2 ^ 95) (hL' : ∀ i e, double.round (.fin (1 / p i)) = .fin e → Spec.PowerNear L e (χ i))
    (hL0 : ∀ e : K, 0 < e → L.pow (.fin 0) (.fin e) = .fin 0) (hη : (|1 - σ| + |σ|) * (E + C / 2 ^ 20) ≤ η) (hη1 : 1 / 2 ^ 23 ≤ η)
    (hχ : ∀ i, Spec.Modulus (χ i) ((1 + 2 / |σ|) * η) H) (hinv : ∀ i x, 0 ≤ x → x ≤ 1 → 0 ≤ ψ i x ∧ ψ i x ≤ 1 ∧ χ i (ψ i x) = x)
    (stride : ℕ) (pixels : List ((Fin 3 → K) × List (Flt K))) (hst : ∀ q ∈ pixels, q.2.length + 3 = stride) (hs3 : 3 ≤ stride)
    (hpx : ∀ q ∈ pixels, (∀ i, Spec.IsSingle (q.1 i) ∧ |q.1 i| ≤ B) ∧
      Spec.Returnable (Spec.fullScale (some d1)) (Spec.fullScale (some d2)) (Spec.fullScale (some d2) * (1 - η)) s o ψ σ q.1) :
    ∃ (r r' : Res K) (G : (Fin 3 → K) → Fin 3 → K), cdlProcessR ieee L compat v bf (Spec.image pixels) stride = .ok r ∧
      cdlProcessR ieee L compat v br r.out stride = .ok r' ∧ r'.out = Spec.image (pixels.map fun q => (G q.1, q.2)) ∧
      ∀ q ∈ pixels, ∀ i, Spec.IsSingle (G q.1 i) ∧ |G q.1 i - q.1 i| ≤ Spec.fullScale (some d1) * ((2 * H + (1 + O) * (5 / 2 ^ 22)) / m) := by
  have hS := fullScale_pos (K := K) (some d1)
  have hT := fullScale_pos (K := K) (some d2)
  have hm0 : 0 < m := lt_of_lt_of_le (by positivity) hu.small.1
  have hs0 : ∀ i, s i ≠ 0 := fun i h => by
    have := hu.slope i
    rw [h, abs_zero] at this
    linarith
  have hσ0 : σ ≠ 0 := fun h => by
    have := hu.saturation.1
    rw [h, abs_zero] at this
    exact absurd this (not_le.mpr (by positivity))
  obtain ⟨r, g, h1, h2, h3⟩ := C154_node L compat v bf d1 d2 (.str "FwdNoClamp") s o p ψ σ (.inl rfl) hf hv B N O Z D E C δ hs hu.offset hN hL hψ
    hD hZ hZC h1C hEC hδ hC stride pixels hst hs3 (fun q hq => (hpx q hq).1)
  have hg : ∀ q ∈ pixels, ∀ j, |g q.1 j - Spec.openGrade (Spec.fullScale (some d1)) (Spec.fullScale (some d2)) s o ψ σ q.1 j|
      ≤ Spec.fullScale (some d2) * η := fun q hq j => (h3 q hq j).2.trans (mul_le_mul_of_nonneg_left hη hT.le)
  have hH : 0 ≤ 1 + 2 / |σ| := by positivity
  obtain ⟨r', g', k1, k2, k3⟩ := C150_free L compat v br d2 d1 s o p χ σ O m H hb hv hu hm hL' hL0
    (fun i => ⟨(hχ i).mem, fun x y a b c d e => (hχ i).close x y a b c d (e.trans (mul_le_mul_of_nonneg_left hη1 hH))⟩)
    stride (pixels.map fun q => (g q.1, q.2)) (by
      intro q hq
      obtain ⟨q, hq', rfl⟩ := List.mem_map.mp hq
      exact hst q hq') hs3 (by
      intro q hq i
      obtain ⟨q, hq', rfl⟩ := List.mem_map.mp hq
      refine ⟨(h3 q hq' i).1, (abs_of_near (hg q hq' i) ((hpx q hq').2.size i)).trans_eq ?_⟩
      ring)
  refine ⟨r, r', fun x => g' (g x), h1, by rw [h2]; exact k1, by rw [k2, List.map_map]; rfl, fun q hq i => ?_⟩
  obtain ⟨a1, a2⟩ := k3 (g q.1, q.2) (List.mem_map.mpr ⟨q, hq, rfl⟩) i
  refine ⟨a1, ?_⟩
  have b1 := reversedFree_close hT hS (s := s) (o := o) (χ := χ) (σ := σ) (E := H) hm0 hu.slope (by
    rw [mul_div_cancel_left₀ _ hT.ne']
    exact hχ) (hg q hq) i
  rw [reversedFree_openGrade hS hT hs0 hσ0 hinv (hpx q hq).2 i] at b1
  have b2 := abs_sub_le (g' (g q.1) i) (Spec.reversedFree (Spec.fullScale (some d2)) (Spec.fullScale (some d1)) s o χ σ (g q.1) i) (q.1 i)
  refine b2.trans ((add_le_add a2 b1).trans_eq ?_)
  ring

/-! ## Real powers -/

/-- Powers above 0, the identity below. -/
noncomputable def Spec.openPower (p : ℝ) (z : ℝ) : ℝ := if z < 0 then z else z ^ p

theorem openPower_near (L : Arith ℝ) (hL : Spec.GoodLibrary L) (p Z C : ℝ) (hp : double.round (.fin p) = .fin p) (h0 : 0 < p)
    (h1C : 1 ≤ C) (hC : Z ^ p ≤ C) (hC9 : C ≤ 2 ^ 900) : Spec.OpenPower L p (Spec.openPower p) Z (C / 2 ^ 40) := by
  refine ⟨fun x hx => if_pos hx, fun b hb hb0 hbZ => ?_⟩
  rw [show Spec.openPower p b = b ^ p from if_neg (not_lt.mpr hb0)]
  rcases hb0.eq_or_lt with rfl | hb1
  · refine ⟨0, hL.zero p (double_fixed hp) h0, ?_⟩
    rw [Real.zero_rpow h0.ne', sub_self, abs_zero]
    positivity
  have h1 : b ^ p ≤ C := (Real.rpow_le_rpow hb1.le hbZ h0.le).trans hC
  obtain ⟨w, hw, ew⟩ := hL.pow b p (double_fixed hb) (double_fixed hp) hb1 (h1.trans hC9)
  refine ⟨w, hw, ew.trans ?_⟩
  have t : (2 : ℝ) ^ (-1000 : ℤ) ≤ 1 / 2 ^ 100 := tiny_zpow (by norm_num)
  generalize (2 : ℝ) ^ (-1000 : ℤ) = μ at *
  clear hC9
  norm_num at *
  linarith

/-- C154: over the reals, with a library whose powers are off by some units in the last place, the curves of powers that are at least 1
are as the theorems ask for on numbers up to `Z`. -/
theorem C154_powers (L : Arith ℝ) (hL : Spec.GoodLibrary L) (p Z k C : ℝ) (hp : double.round (.fin p) = .fin p) (h1 : 1 ≤ p) (hZ : 0 ≤ Z)
    (hk1 : 1 ≤ k) (hk : p * Z ^ (p - 1) ≤ k) (hZC : Z ≤ C) (h1C : 1 ≤ C) (hC : Z ^ p ≤ C) (hC9 : C ≤ 2 ^ 900) :
    Spec.OpenPower L p (Spec.openPower p) Z (C / 2 ^ 40) ∧ Spec.ToneBounds (Spec.openPower p) Z k C := by
  refine ⟨openPower_near L hL p Z C hp (by linarith) h1C hC hC9, by linarith, fun x hx => ?_, ?_⟩
  · unfold Spec.openPower
    split_ifs with h
    · exact hx.trans hZC
    · have hx0 := not_lt.mp h
      rw [abs_of_nonneg hx0] at hx
      rw [abs_of_nonneg (Real.rpow_nonneg hx0 _)]
      exact (Real.rpow_le_rpow hx0 hx (by linarith)).trans hC
  have mvt : ∀ x y : ℝ, 0 ≤ x → x ≤ Z → 0 ≤ y → y ≤ Z → |x ^ p - y ^ p| ≤ k * |x - y| := by
    intro x y hx hx1 hy hy1
    have := Convex.norm_image_sub_le_of_norm_deriv_le (f := fun x : ℝ => x ^ p) (s := Set.Icc 0 Z) (C := k) (x := y) (y := x)
      (fun z _ => (Real.hasDerivAt_rpow_const (.inr h1)).differentiableAt) (fun z hz => by
        rw [(Real.hasDerivAt_rpow_const (.inr h1)).deriv, Real.norm_eq_abs, abs_mul, abs_of_nonneg (by linarith : (0 : ℝ) ≤ p),
          abs_of_nonneg (Real.rpow_nonneg hz.1 _)]
        exact (mul_le_mul_of_nonneg_left (Real.rpow_le_rpow hz.1 hz.2 (by linarith)) (by linarith)).trans hk)
      (convex_Icc 0 Z) ⟨hy, hy1⟩ ⟨hx, hx1⟩
    simpa [Real.norm_eq_abs] using this
  have mixed : ∀ x y : ℝ, x < 0 → 0 ≤ y → y ≤ Z → |x - y ^ p| ≤ k * |x - y| := by
    intro x y hx hy hyZ
    have h2 := mvt y 0 hy hyZ le_rfl hZ
    rw [Real.zero_rpow (by linarith), sub_zero, sub_zero, abs_of_nonneg (Real.rpow_nonneg hy _), abs_of_nonneg hy] at h2
    rw [abs_of_nonpos (by linarith [Real.rpow_nonneg hy p]), abs_of_nonpos (by linarith)]
    have := mul_le_mul_of_nonneg_right hk1 (neg_nonneg.mpr hx.le)
    linarith
  intro x y hx hy
  unfold Spec.openPower
  split_ifs with a b b
  · exact le_mul_of_one_le_left (abs_nonneg _) hk1
  · exact mixed x y a (not_lt.mp b) ((le_abs_self _).trans hy)
  · rw [abs_sub_comm, abs_sub_comm x y]
    exact mixed y x b (not_lt.mp a) ((le_abs_self _).trans hx)
  · exact mvt x y (not_lt.mp a) ((le_abs_self _).trans hx) (not_lt.mp b) ((le_abs_self _).trans hy)

/-- C154: powers below 1 have an infinite slope at 0: what they make of the rounding `D` is its power. -/
theorem C154_roots (L : Arith ℝ) (hL : Spec.GoodLibrary L) (p Z D C : ℝ) (hp : double.round (.fin p) = .fin p) (h0 : 0 < p) (h1 : p ≤ 1)
    (hD : 0 ≤ D) (hZC : Z ≤ C) (h1C : 1 ≤ C) (hC : Z ^ p ≤ C) (hC9 : C ≤ 2 ^ 900) :
    Spec.OpenPower L p (Spec.openPower p) Z (C / 2 ^ 40) ∧ Spec.OpenModulus (Spec.openPower p) Z D (D + D ^ p) C := by
  have hDp := Real.rpow_nonneg hD p
  refine ⟨openPower_near L hL p Z C hp h0 h1C hC hC9, fun x hx => ?_, ?_⟩
  · unfold Spec.openPower
    split_ifs with h
    · exact hx.trans hZC
    · have hx0 := not_lt.mp h
      rw [abs_of_nonneg hx0] at hx
      rw [abs_of_nonneg (Real.rpow_nonneg hx0 _)]
      exact (Real.rpow_le_rpow hx0 hx h0.le).trans hC
  have sub : ∀ {a b : ℝ}, 0 ≤ a → a ≤ b → b - a ≤ D → |b ^ p - a ^ p| ≤ D + D ^ p := by
    intro a b ha hab h
    have h2 := Real.rpow_add_le_add_rpow ha (sub_nonneg.mpr hab) h0.le h1
    rw [add_sub_cancel] at h2
    have h3 := Real.rpow_le_rpow (sub_nonneg.mpr hab) h h0.le
    rw [abs_of_nonneg (sub_nonneg.mpr (Real.rpow_le_rpow ha hab h0.le))]
    linarith
  have mixed : ∀ x y : ℝ, x < 0 → 0 ≤ y → |x - y| ≤ D → |x - y ^ p| ≤ D + D ^ p := by
    intro x y hx hy h
    rw [abs_of_nonpos (by linarith)] at h
    have h3 := Real.rpow_le_rpow hy (by linarith : y ≤ D) h0.le
    rw [abs_of_nonpos (by linarith [Real.rpow_nonneg hy p])]
    linarith
  intro x y hx hy h
  unfold Spec.openPower
  split_ifs with a b b
  · linarith
  · exact mixed x y a (not_lt.mp b) h
  · rw [abs_sub_comm] at h ⊢
    exact mixed y x b (not_lt.mp a) h
  · rcases le_total x y with e | e
    · rw [abs_sub_comm]
      exact sub (not_lt.mp a) e (by rwa [abs_sub_comm, abs_of_nonneg (by linarith)] at h)
    · exact sub (not_lt.mp b) e (by rwa [abs_of_nonneg (by linarith)] at h)

/-! ## Examples -/

/-- A library that knows squares. -/
def squareArith : Arith ℚ where
  f32 := id
  pow b _ := b * b
  log10 x := x

/-- Squares above 0, the identity below. -/
def openSquare (x : ℚ) : ℚ := if x < 0 then x else x * x

theorem openSquare_tone : Spec.ToneBounds openSquare 9 18 81 := by
  refine ⟨by norm_num, fun x hx => ?_, fun x y hx hy => ?_⟩
  · rw [abs_le] at hx ⊢
    unfold openSquare
    split_ifs with h
    · constructor <;> linarith
    · constructor <;> nlinarith
  · rw [abs_le] at hx hy
    unfold openSquare
    split_ifs with a b b
    · linarith [abs_nonneg (x - y)]
    · rw [abs_of_nonpos (by nlinarith), abs_of_nonpos (by linarith)]
      nlinarith
    · rw [abs_of_nonneg (by nlinarith), abs_of_nonneg (by linarith)]
      nlinarith
    · rw [show x * x - y * y = (x + y) * (x - y) by ring, abs_mul]
      refine mul_le_mul_of_nonneg_right ?_ (abs_nonneg _)
      rw [abs_le]
      constructor <;> linarith

def squareValues : CdlValues ℚ := { slope := some (Spec.fins ![2, 1, 1 / 2]), power := some (Spec.fins ![2, 2, 2]), saturation := some (.fin (1 / 2)) }

/-- C154 for slopes, squares and saturation, on colours between -4 and 4: within 2 parts in 10000. -/
example (pixels : List (Fin 3 → ℚ)) (hp : ∀ p ∈ pixels, ∀ i, Spec.IsSingle (p i) ∧ |p i| ≤ 4) :
    ∃ g : (Fin 3 → ℚ) → Fin 3 → ℚ, processListR ⟨ieee, fun _ => single, squareArith⟩ 0
        [.leaf (.cdl false squareValues) (undoBase "FwdNoClamp")] (Spec.rgb pixels) 3 = .ok (Spec.rgb (pixels.map g)) ∧
      ∀ p ∈ pixels, ∀ i, |g p i - Spec.openGrade 1 1 ![2, 1, 1 / 2] (fun _ => 0) (fun _ => openSquare) (1 / 2) p i| ≤ 2 / 10 ^ 4 := by
  have hfs : (Spec.fullScale (some (.str "16f")) : ℚ) = 1 := by simp [Spec.fullScale, Spec.bits]
  have h146 : (2 : ℚ) ^ (-146 : ℤ) ≤ 1 / 2 ^ 100 := tiny_zpow (by norm_num)
  obtain ⟨i1, g1⟩ := C154_list ⟨ieee, fun _ => single, squareArith⟩ rfl (ns := false) (v := squareValues) (b := undoBase "FwdNoClamp")
    (din := .str "16f") (dout := .str "16f") (s := ![2, 1, 1 / 2]) (o := fun _ => 0) (p := ![2, 2, 2]) (ψ := fun _ => openSquare) (σ := 1 / 2)
    (B := 4) (N := 2) (O := 0) (Z := 9) (D := 1 / 2 ^ 19) (k := 18) (C := 81) (δ := 0) ⟨rfl, rfl, rfl⟩
    ⟨.inl rfl, .inr ⟨rfl, rfl⟩, .inl rfl, .inl rfl⟩ (by decide +kernel) (by simp) (by norm_num)
    (fun _ => ⟨fun x hx => if_pos hx, fun b _ h0 _ => ⟨b * b, rfl, by simp [openSquare, not_lt.mpr h0]⟩⟩) (fun _ => openSquare_tone)
    (by
      rw [hfs]
      generalize (2 : ℚ) ^ (-146 : ℤ) = μ at *
      norm_num at *
      linarith) (by rw [hfs]; norm_num) (by norm_num) (by norm_num) (by norm_num) (by norm_num)
    (by rw [show |1 - (1 : ℚ) / 2| + |1 / 2| = 1 by norm_num [abs_of_pos]]; norm_num) (by norm_num) rfl rfl
  obtain ⟨g, h1, h2⟩ := C148_list _ rfl 0 [.leaf (.cdl false squareValues) (undoBase "FwdNoClamp")] _ (.node (.inl rfl) i1 .nil) 4 _
    (.cons (g1 4 le_rfl) .nil) pixels hp
  refine ⟨g, h1, fun p hp' i => ?_⟩
  have h3 := (h2 p hp' i).2
  rw [Spec.evalChain, Spec.evalChain, Spec.Stage.eval, hfs, funext fun j => clampD_id (hp p hp' j).2] at h3
  refine h3.trans ?_
  norm_num [abs_of_pos]

/-- C154 there and back, on one pixel with a further channel. -/
example : ∃ (r r' : Res ℚ) (G : (Fin 3 → ℚ) → Fin 3 → ℚ),
    cdlProcessR ieee ratArith 0 undoValues (undoBase "FwdNoClamp") (Spec.image [(![1 / 8, 1 / 4, 1 / 2], [.fin 7])]) 4 = .ok r ∧
    cdlProcessR ieee ratArith 0 undoValues (undoBase "RevNoClamp") r.out 4 = .ok r' ∧ r'.out = Spec.image [(G ![1 / 8, 1 / 4, 1 / 2], [.fin 7])] ∧
    ∀ i, |G ![1 / 8, 1 / 4, 1 / 2] i - ![1 / 8, 1 / 4, 1 / 2] i| ≤ 2 / 10 ^ 4 := by
  have hfs : (Spec.fullScale (some (.str "16f")) : ℚ) = 1 := by simp [Spec.fullScale, Spec.bits]
  have h146 : (2 : ℚ) ^ (-146 : ℤ) ≤ 1 / 2 ^ 100 := tiny_zpow (by norm_num)
  obtain ⟨r, r', G, h1, h2, h3, h4⟩ := C154_roundtrip ratArith 0 undoValues (undoBase "FwdNoClamp") (undoBase "RevNoClamp") (.str "16f") (.str "16f")
    ![2, 1, 1 / 2] (fun _ => 0) (fun _ => 1) (fun _ x => x) (fun _ x => x) (1 / 2) 1 2 0 3 (1 / 2 ^ 21) (1 / 2 ^ 21) 3 0 (1 / 2) (1 / 2 ^ 17)
    ((1 + 2 / |1 / 2|) * (1 / 2 ^ 17)) ⟨rfl, rfl, rfl⟩ ⟨rfl, rfl, rfl⟩ undo_is undo_able (by norm_num) (by decide +kernel) (by norm_num)
    (fun _ => ⟨fun _ _ => rfl, fun b _ _ _ => ⟨b, rfl, by simp⟩⟩) (fun _ => ⟨fun _ h => h, fun _ _ _ _ h => h⟩)
    (by
      rw [hfs]
      generalize (2 : ℚ) ^ (-146 : ℤ) = μ at *
      norm_num at *
      linarith) (by rw [hfs]; norm_num) le_rfl (by norm_num) (by norm_num) (by norm_num)
    (by rw [show |1 - (1 : ℚ) / 2| + |1 / 2| = 1 by norm_num [abs_of_pos]]; norm_num) undo_power (fun e he => by simp [ratArith, he.ne'])
    (by rw [show |1 - (1 : ℚ) / 2| + |1 / 2| = 1 by norm_num [abs_of_pos]]; norm_num) (by norm_num)
    (fun _ => ⟨fun _ h0 h1 => ⟨h0, h1⟩, fun _ _ _ _ _ _ h => h⟩) (fun _ _ h0 h1 => ⟨h0, h1, rfl⟩) 4 [(![1 / 8, 1 / 4, 1 / 2], [.fin 7])] (by simp)
    (by norm_num) (by
      simp only [List.mem_singleton, forall_eq, hfs]
      refine ⟨?_, ?_, ?_⟩
      · unfold Spec.IsSingle
        decide +kernel
      · decide +kernel
      · decide +kernel)
  refine ⟨r, r', G, h1, h2, by simpa using h3, fun i => ?_⟩
  refine ((h4 _ (List.mem_singleton.mpr rfl) i).2).trans ?_
  rw [hfs]
  norm_num [abs_of_pos]

/-- C154 for real squares up to 9. -/
example (L : Arith ℝ) (hL : Spec.GoodLibrary L) :
    Spec.OpenPower L 2 (Spec.openPower 2) 9 (81 / 2 ^ 40) ∧ Spec.ToneBounds (Spec.openPower 2) 9 18 81 := by
  have h2 : double.round (.fin (2 : ℝ)) = .fin 2 := by
    refine (double_fin (by rw [abs_two]; exact le_self_pow₀ one_le_two (by norm_num))).trans (congrArg _ ?_)
    simpa using Fmt.near_short (K := ℝ) double 1 1 (by decide) (by decide)
  exact C154_powers L hL 2 9 18 81 h2 (by norm_num) (by norm_num) (by norm_num) (by norm_num) (by norm_num) (by norm_num) (by norm_num)
    (le_trans (by norm_num : (81 : ℝ) ≤ 2 ^ 7) (pow_le_pow_right₀ one_le_two (by norm_num)))

/-- C154 for real square roots of numbers up to 9, with an uncertainty of 1 in 10000. -/
example (L : Arith ℝ) (hL : Spec.GoodLibrary L) :
    Spec.OpenModulus (Spec.openPower (1 / 2)) 9 (1 / 10 ^ 4) (1 / 10 ^ 4 + (1 / 10 ^ 4) ^ (1 / 2 : ℝ)) 9 := by
  have h2 : double.round (.fin (1 / 2 : ℝ)) = .fin (1 / 2) := by
    refine (double_fin (by
      rw [abs_of_pos (by norm_num)]
      exact le_trans (by norm_num) (one_le_pow₀ one_le_two))).trans (congrArg _ ?_)
    simpa using Fmt.near_short (K := ℝ) double 1 (-1) (by decide) (by decide)
  exact (C154_roots L hL (1 / 2) 9 (1 / 10 ^ 4) 9 h2 (by norm_num) (by norm_num) (by norm_num) le_rfl (by norm_num)
    ((Real.rpow_le_rpow_of_exponent_le (by norm_num) (by norm_num : (1 / 2 : ℝ) ≤ 1)).trans (by norm_num))
    (le_trans (by norm_num : (9 : ℝ) ≤ 2 ^ 4) (pow_le_pow_right₀ one_le_two (by norm_num)))).2

end CLF
