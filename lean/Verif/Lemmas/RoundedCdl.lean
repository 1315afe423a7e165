import Verif.Lemmas.Cdl
import Verif.Lemmas.RoundedRange
import Verif.Model.RoundedPower
import Verif.Spec.Chain

/-!
# The ASC CDL in IEEE arithmetic: lemmas
-/

set_option linter.unusedSectionVars false

namespace CLF

variable {K : Type} [Field K] [LinearOrder K] [IsStrictOrderedRing K] [FloorRing K]

/-! ## One operation -/

/-- A result in `float64`. -/
theorem double_op {x M : K} (h : |x| ≤ M) (h1 : 1 ≤ M) (hM : M ≤ 2 ^ 300) :
    ∃ z, ieee double (.fin x) = .fin z ∧ |z - x| ≤ M * (1 / 2 ^ 52) := by
  refine ⟨_, double_fin (h.trans hM), (double_rounder.err x).trans ?_⟩
  have h2 : |x| * (1 / 2 ^ 53) ≤ M * (1 / 2 ^ 53) := mul_le_mul_of_nonneg_right h (by positivity)
  have h3 := eta_le (K := K)
  have h4 : (1 : K) / 2 ^ 53 ≤ M * (1 / 2 ^ 53) := le_mul_of_one_le_left (by positivity) h1
  have h5 : M * (1 / 2 ^ 52) = 2 * (M * (1 / 2 ^ 53)) := by ring
  linarith

theorem thousand_le : (1000 : K) ≤ 2 ^ 300 :=
  le_trans (by norm_num : (1000 : K) ≤ 2 ^ 10) (pow_le_pow_right₀ one_le_two (by norm_num))

theorem double_fixed {x z : K} (h : ieee double (.fin x) = .fin z) : double.near z = z := by
  rw [← (Fmt.round_finite double h).1, Fmt.near_near]

/-- Clipping keeps `float64` numbers. -/
theorem double_clip {x z : K} (h : ieee double (.fin x) = .fin z) : double.round (.fin (Spec.clip z)) = .fin (Spec.clip z) := by
  have hz := double_fixed h
  have hb : |Spec.clip z| ≤ 2 ^ 300 := by
    rw [abs_of_nonneg (le_min zero_le_one (le_max_left _ _))]
    exact (min_le_left _ _).trans (one_le_pow₀ one_le_two)
  refine (double_fin hb).trans (congrArg _ ?_)
  unfold Spec.clip
  rcases max_choice 0 z with e | e <;> rcases min_choice 1 (max 0 z) with e' | e' <;> rw [e'] <;>
    first | exact double_one | (rw [e]; first | exact Fmt.near_zero _ | exact hz)

/-- A result stored as `float32`. -/
theorem single_op {x M : K} (h : |x| ≤ M) (hM : M ≤ 2 ^ 125) :
    ∃ z, ieee single (.fin x) = .fin z ∧ Spec.IsSingle z ∧ |z - x| ≤ M * (1 / 2 ^ 24) + 2 ^ (-150 : ℤ) ∧ (0 ≤ x → 0 ≤ z) ∧ (x ≤ 1 → z ≤ 1) :=
  ⟨_, single_fin (h.trans hM), isSingle_near (single_fin (h.trans hM)), (single_rounder.err x).trans
    (add_le_add_left (mul_le_mul_of_nonneg_right h (by positivity)) _), fun h => single_rounder.nonneg h, fun h => by
      have := Fmt.near_mono single h
      rwa [single_one] at this⟩

/-- From the unit scale to pixel values. -/
theorem back_pos (d : Depth) {y : K} (hy : Spec.IsSingle y) (hb : |y| ≤ 2 ^ 100) :
    ∃ z, ieee single (fromUnitR ieee (.fin y) d) = .fin z ∧ Spec.IsSingle z ∧ (0 ≤ y → 0 ≤ z) ∧ (y ≤ 1 → z ≤ Spec.fullScale d) ∧
      |z - y * Spec.fullScale d| ≤ |y * Spec.fullScale d| * (9 / 8 * (1 / 2 ^ 24)) + 2 ^ (-148 : ℤ) := by
  have h16 : (Spec.fullScale d : K) ≤ 2 ^ 16 := by
    rw [← bitDepthSize_eq_fullScale]
    unfold bitDepthSize
    split_ifs <;> norm_num
  have hT := fullScale_pos (K := K) d
  have hfull : single.near (double.near (Spec.fullScale d : K)) = Spec.fullScale d := by
    have key : ∃ n : ℕ, n < 2 ^ 24 ∧ (Spec.fullScale d : K) = n := by
      rw [← bitDepthSize_eq_fullScale]
      unfold bitDepthSize
      split_ifs
      · exact ⟨255, by norm_num, by norm_num⟩
      · exact ⟨1023, by norm_num, by norm_num⟩
      · exact ⟨4095, by norm_num, by norm_num⟩
      · exact ⟨65535, by norm_num, by norm_num⟩
      · exact ⟨1, by norm_num, by norm_num⟩
    obtain ⟨n, hn, e⟩ := key
    rw [e, double_nat n (by omega)]
    exact (Fmt.round_finite single (single_nat (K := K) n hn)).1
  have hsz : |y * Spec.fullScale d| ≤ 2 ^ 116 := by
    rw [abs_mul, abs_of_pos hT]
    have := mul_le_mul hb h16 hT.le (by positivity)
    refine this.trans (le_of_eq ?_)
    rw [← pow_add]
  rcases fromUnitR_cases ieee (.fin y) d with ⟨e, h255⟩ | ⟨e, h1⟩
  · have e1 : ieee double (.fin (y * Spec.fullScale d)) = .fin (double.near (y * Spec.fullScale d)) :=
      double_fin (hsz.trans (pow_le_pow_right₀ one_le_two (by norm_num)))
    have hz : |double.near (y * Spec.fullScale d)| ≤ 2 ^ 125 :=
      (double_size hsz).trans (pow_le_pow_right₀ one_le_two (by norm_num))
    have e2 := single_fin hz
    rw [e, Flt.fin_mul, e1, e2]
    refine ⟨_, rfl, isSingle_near e2, fun h => ?_, fun h => ?_, ?_⟩
    · exact single_rounder.nonneg (double_rounder.nonneg (mul_nonneg h hT.le))
    · have := Fmt.near_mono single (Fmt.near_mono double (mul_le_of_le_one_left hT.le h))
      rwa [hfull] at this
    · exact near_twice (double_rounder.err _)
  · have hy' : ieee single (.fin y) = .fin y := hy
    rw [e, hy', h1, mul_one]
    refine ⟨y, rfl, hy, id, id, ?_⟩
    rw [sub_self, abs_zero]
    have := (two_zpow_pos (K := K) (-148)).le
    positivity

theorem tiny_zpow {n : ℤ} (h : n ≤ -100) : (2 : K) ^ n ≤ 1 / 2 ^ 100 := by
  rw [one_div, ← zpow_natCast, ← zpow_neg]
  exact zpow_le_zpow_right₀ one_le_two (by push_cast; exact h)

theorem single_small : (2 : K) ^ (-150 : ℤ) ≤ 1 / 2 ^ 24 := by
  rw [zpow_neg, ← one_div]
  refine one_div_le_one_div_of_le (by positivity) ?_
  rw [show (150 : ℤ) = ((150 : ℕ) : ℤ) from rfl, zpow_natCast]
  exact pow_le_pow_right₀ one_le_two (by norm_num)

/-! ## Pixels -/

/-- One pixel of style `Fwd`, for any rounding. -/
theorem cdlFwdR_pixel (R : Rounding K) (L : Arith K) (s o p : Fin 3 → K) (σ : K) (d1 d2 : Depth) (x u a z w y q r out : Fin 3 → K) (l : K)
    (rest : List (Flt K))
    (h1 : ∀ i, R single (toUnitR R (.fin (x i)) d1) = .fin (u i)) (h2 : ∀ i, R double (.fin (u i * s i)) = .fin (a i))
    (h3 : ∀ i, R double (.fin (a i + o i)) = .fin (z i))
    (h4 : ∀ i, pyPow L (.fin (Spec.clip (z i))) (.fin (p i)) = .ok (.fin (w i))) (h5 : ∀ i, R single (.fin (w i)) = .fin (y i))
    (h6 : lumaR R (Spec.fins y ++ rest) = .ok (.fin l)) (h7 : ∀ i, saturateR R (.fin l) (.fin σ) (.fin (y i)) = .fin (q i))
    (h8 : ∀ i, R single (.fin (Spec.clip (q i))) = .fin (r i)) (h9 : ∀ i, R single (fromUnitR R (.fin (r i)) d2) = .fin (out i)) :
    cdlFwdR R L (finCdl s o p σ) d1 d2 (Spec.fins x ++ rest) = .ok (Spec.fins out ++ rest) := by
  unfold cdlFwdR
  rw [chanLoop3_fins _ x y rest]
  · simp only [py_ok_bind, h6]
    apply chanLoop3_fins
    intro i
    simp only [finCdl, h7, clamp01_clip, h8, h9, py_pure]
  · intro i
    simp only [finCdl, fins3_get, py_ok_bind, h1, Flt.fin_mul, h2, Flt.fin_add, h3, clamp01_clip, h4, h5, py_pure]

/-- The luma of a pixel, for any rounding. -/
theorem lumaR_fins (R : Rounding K) (y : Fin 3 → K) (rest : List (Flt K)) (c0 c1 c2 p0 p1 p2 t l : K)
    (k0 : R double (.fin (2126 / 10000)) = .fin c0) (k1 : R double (.fin (7152 / 10000)) = .fin c1)
    (k2 : R double (.fin (722 / 10000)) = .fin c2) (h0 : R double (.fin (c0 * y 0)) = .fin p0)
    (h1 : R double (.fin (c1 * y 1)) = .fin p1) (h2 : R double (.fin (c2 * y 2)) = .fin p2)
    (ht : R double (.fin (p0 + p1)) = .fin t) (hl : R double (.fin (t + p2)) = .fin l) :
    lumaR R (Spec.fins y ++ rest) = .ok (.fin l) := by
  rw [fins3]
  simp only [List.cons_append, List.nil_append, lumaR, literalR, k0, k1, k2]
  have g0 : ∀ a b c : Flt K, pyGet (a :: b :: c :: rest) 0 = .ok a := fun _ _ _ => rfl
  have g1 : ∀ a b c : Flt K, pyGet (a :: b :: c :: rest) 1 = .ok b := fun _ _ _ => rfl
  have g2 : ∀ a b c : Flt K, pyGet (a :: b :: c :: rest) 2 = .ok c := fun _ _ _ => rfl
  simp only [g0, g1, g2, py_ok_bind, Flt.fin_mul, h0, h1, h2, Flt.fin_add, ht, hl, py_pure]

/-- The change of saturation, for any rounding. -/
theorem saturateR_fin (R : Rounding K) (l σ y d m q : K) (h1 : R double (.fin (y - l)) = .fin d)
    (h2 : R double (.fin (σ * d)) = .fin m) (h3 : R double (.fin (l + m)) = .fin q) :
    saturateR R (.fin l) (.fin σ) (.fin y) = .fin q := by
  simp only [saturateR, Flt.fin_sub, h1, Flt.fin_mul, h2, Flt.fin_add, h3]

theorem cdlPixelR_length {R : Rounding K} {L : Arith K} {st : AVal} {c : Cdl K} {d1 d2 : Depth} {px r : List (Flt K)}
    (h : cdlPixelR R L st c d1 d2 px = .ok r) : r.length = px.length := by
  have two : ∀ (f : ℕ → Flt K → Py (Flt K)) (l : List (Flt K) → Py (Flt K)) (g : Flt K → ℕ → Flt K → Py (Flt K)),
      (do let px ← chanLoop 3 f px; let l ← l px; chanLoop 3 (g l) px) = .ok r → r.length = px.length := by
    intro f l g h
    obtain ⟨px1, h1, h⟩ := py_bind_eq_ok.mp h
    obtain ⟨l1, h2, h⟩ := py_bind_eq_ok.mp h
    rw [(chanLoop_length h).2, (chanLoop_length h1).2]
  unfold cdlPixelR at h
  split_ifs at h
  · exact two _ _ _ h
  · exact two _ _ _ h
  · exact two _ _ _ h
  · exact two _ _ _ h
  · cases h; rfl

/-- The node on finite pixels, from what it does to one pixel, for any rounding. -/
theorem cdlR_image (R : Rounding K) (L : Arith K) (compat : ℕ) (v : CdlValues K) (b : Base K)
    (din dout st : AVal) (h : StyledNode b din dout st)
    (hst : hasFeature compat autodesk = true ∨ cdlVendorStyles.contains st = false)
    (stride : ℕ) (pixels : List ((Fin 3 → K) × List (Flt K)))
    (hp : ∀ p ∈ pixels, p.2.length + 3 = stride) (hs : 3 ≤ stride) (F : (Fin 3 → K) → Fin 3 → K)
    (hF : ∀ p ∈ pixels, cdlPixelR R L st v.resolve (some din) (some dout) (Spec.fins p.1 ++ p.2)
      = .ok (Spec.fins (F p.1) ++ p.2)) :
    ∃ r, cdlProcessR R L compat v b (Spec.image pixels) stride = .ok r ∧
      r.out = Spec.image (pixels.map fun p => (F p.1, p.2)) := by
  obtain ⟨e1, e2, e3⟩ := h.attrs
  have hs0 : ¬ stride = 0 := by omega
  have hs3 : ¬ stride < 3 := by omega
  have hg : (!hasFeature compat autodesk && cdlVendorStyles.contains st) = false := by
    rcases hst with h | h <;> rw [h] <;> simp
  have hlen : ∀ c ∈ pixels.map fun p => Spec.fins p.1 ++ p.2, c.length = stride := by
    intro c hc
    obtain ⟨p, hp', rfl⟩ := List.mem_map.mp hc
    have := hp p hp'
    simp [Spec.fins]; omega
  have loop := viewLoop_chunks stride (by omega) (cdlPixelR R L st v.resolve (some din) (some dout)) (pixels.map fun p => Spec.fins p.1 ++ p.2) []
    hlen (by simp; omega) (by
      intro c hcc o ho
      rw [cdlPixelR_length ho, hlen c hcc])
  rw [List.append_nil, py_mapM_map, py_mapM_ok _ (fun p => Spec.fins (F p.1) ++ p.2) pixels hF] at loop
  rw [image_eq]
  unfold cdlProcessR
  simp only [if_neg hs0, if_neg hs3, e1, e2, e3, py_ok_bind, hg, Bool.false_eq_true, if_false, loop]
  refine ⟨_, rfl, ?_⟩
  simp [image_eq, Function.comp_def]

/-! ## Errors -/

theorem abs_of_near {x y e M : K} (h : |x - y| ≤ e) (hy : |y| ≤ M) : |x| ≤ M + e := by
  have := abs_add_le y (x - y)
  rw [add_sub_cancel] at this
  linarith

/-- The luma of numbers that are at most 2 in size. -/
theorem lumaR_near (y : Fin 3 → K) (hy : ∀ i, |y i| ≤ 2) :
    ∃ l, (∀ rest, lumaR ieee (Spec.fins y ++ rest) = .ok (.fin l)) ∧ |l - Spec.luma y| ≤ 1 / 2 ^ 47 ∧ double.near l = l := by
  have big := thousand_le (K := K)
  have small : (1 : K) / 2 ^ 52 ≤ 1 / 1000 := by norm_num
  have small0 : (0 : K) ≤ 1 / 2 ^ 52 := by positivity
  have e48 : (1 : K) / 2 ^ 47 = 32 * (1 / 2 ^ 52) := by norm_num
  rw [e48]
  have prod : ∀ k y : K, 0 ≤ k → k ≤ 1 → |y| ≤ 2 → ∃ c p, ieee double (.fin k) = .fin c ∧ ieee double (.fin (c * y)) = .fin p ∧
      |p - k * y| ≤ 5 * (1 / 2 ^ 52) ∧ |k * y| ≤ 2 := by
    intro k y h0 h1 hy
    obtain ⟨c, hc, ec⟩ := double_op (x := k) (M := 1) (by rwa [abs_of_nonneg h0]) le_rfl (le_trans (by norm_num) big)
    have hcy : |c * y - k * y| ≤ 2 * (1 * (1 / 2 ^ 52)) := by
      rw [← sub_mul, abs_mul, mul_comm]
      exact mul_le_mul hy ec (abs_nonneg _) (by norm_num)
    have hky : |k * y| ≤ 2 := by
      rw [abs_mul, abs_of_nonneg h0]
      have := mul_le_mul h1 hy (abs_nonneg y) zero_le_one
      linarith
    have hM := abs_of_near hcy hky
    obtain ⟨p, hp, ep⟩ := double_op (x := c * y) (M := 3) (by linarith) (by norm_num) (le_trans (by norm_num) big)
    refine ⟨c, p, hc, hp, ?_, hky⟩
    have := abs_sub_le p (c * y) (k * y)
    linarith
  obtain ⟨c0, p0, k0, h0, e0, b0⟩ := prod (2126 / 10000) (y 0) (by norm_num) (by norm_num) (hy 0)
  obtain ⟨c1, p1, k1, h1, e1, b1⟩ := prod (7152 / 10000) (y 1) (by norm_num) (by norm_num) (hy 1)
  obtain ⟨c2, p2, k2, h2, e2, b2⟩ := prod (722 / 10000) (y 2) (by norm_num) (by norm_num) (hy 2)
  have a0 := abs_of_near e0 b0
  have a1 := abs_of_near e1 b1
  have a2 := abs_of_near e2 b2
  obtain ⟨t, ht, et⟩ := double_op (x := p0 + p1) (M := 5) ((abs_add_le _ _).trans (by linarith)) (by norm_num) (le_trans (by norm_num) big)
  have at' := abs_of_near et ((abs_add_le p0 p1).trans (add_le_add a0 a1))
  obtain ⟨l, hl, el⟩ := double_op (x := t + p2) (M := 8) ((abs_add_le _ _).trans (by linarith)) (by norm_num) (le_trans (by norm_num) big)
  refine ⟨l, fun rest => lumaR_fins ieee y rest c0 c1 c2 p0 p1 p2 t l k0 k1 k2 h0 h1 h2 ht hl, ?_, double_fixed hl⟩
  unfold Spec.luma
  generalize (2126 / 10000 : K) * y 0 = d0 at *
  generalize (7152 / 10000 : K) * y 1 = d1 at *
  generalize (722 / 10000 : K) * y 2 = d2 at *
  rw [abs_le] at e0 e1 e2 et el ⊢
  constructor <;> linarith [e0.1, e0.2, e1.1, e1.2, e2.1, e2.2, et.1, et.2, el.1, el.2]

/-- The change of saturation. -/
theorem saturateR_near {l σ y : K} (hl : |l| ≤ 3) (hy : |y| ≤ 2) (hσ : |σ| ≤ 2 ^ 120) :
    ∃ q, saturateR ieee (.fin l) (.fin σ) (.fin y) = .fin q ∧ |q - (l + σ * (y - l))| ≤ (1 + |σ|) * (1 / 2 ^ 47) := by
  have big := thousand_le (K := K)
  have hσ0 := abs_nonneg σ
  have big' : (4 : K) + 7 * 2 ^ 120 ≤ 2 ^ 300 := by
    have h1 : (2 : K) ^ 130 ≤ 2 ^ 300 := pow_le_pow_right₀ one_le_two (by norm_num)
    refine le_trans ?_ h1
    norm_num
  have bσ : 4 + 7 * |σ| ≤ 2 ^ 300 := le_trans (by gcongr) big'
  have small : (1 : K) / 2 ^ 52 ≤ 1 / 1000 := by norm_num
  have small0 : (0 : K) ≤ 1 / 2 ^ 52 := by positivity
  have e48 : (1 : K) / 2 ^ 47 = 32 * (1 / 2 ^ 52) := by norm_num
  rw [e48]
  have hyl : |y - l| ≤ 5 := (abs_sub y l).trans (by linarith)
  obtain ⟨d, hd, ed⟩ := double_op (x := y - l) (M := 5) hyl (by norm_num) (le_trans (by norm_num) big)
  have ad := abs_of_near ed hyl
  have hσd : |σ * d| ≤ 6 * |σ| := by
    rw [abs_mul, mul_comm]
    exact mul_le_mul_of_nonneg_right (by linarith) hσ0
  obtain ⟨m, hm, em⟩ := double_op (x := σ * d) (M := 6 * |σ| + 1) (by linarith) (by linarith) (le_trans (by linarith) bσ)
  have am := abs_of_near em hσd
  have hs : (6 * |σ| + 1) * (1 / 2 ^ 52) ≤ (6 * |σ| + 1) * (1 / 1000) := mul_le_mul_of_nonneg_left small (by linarith)
  obtain ⟨q, hq, eq⟩ := double_op (x := l + m) (M := 4 + 7 * |σ|) ((abs_add_le _ _).trans (by linarith)) (by linarith) bσ
  refine ⟨q, saturateR_fin ieee l σ y d m q hd hm hq, ?_⟩
  have e1 : |σ * d - σ * (y - l)| ≤ |σ| * (5 * (1 / 2 ^ 52)) := by
    rw [← mul_sub, abs_mul]
    exact mul_le_mul_of_nonneg_left ed hσ0
  have h0 : 0 ≤ |σ| * (1 / 2 ^ 52) := mul_nonneg hσ0 small0
  generalize (1 : K) / 2 ^ 52 = ε at *
  generalize σ * (y - l) = w at *
  rw [abs_le] at eq em e1 ⊢
  constructor <;> linarith [eq.1, eq.2, em.1, em.2, e1.1, e1.2]

/-! ## The whole pixel -/

theorem clip_close (x y : K) : |Spec.clip x - Spec.clip y| ≤ |x - y| := by
  unfold Spec.clip
  have h1 := abs_min_sub_min_le_max 1 (max 0 x) 1 (max 0 y)
  have h2 := abs_max_sub_max_le_max 0 x 0 y
  simp only [sub_self, abs_zero] at h1 h2
  exact h1.trans (max_le (abs_nonneg _) (h2.trans (max_le (abs_nonneg _) le_rfl)))

/-- Slope and offset. -/
theorem sop_near (d : Depth) {x s o N O V : K} (hx : Spec.IsSingle x) (hs : |s| ≤ N) (ho : |o| ≤ O) (hV : |x / Spec.fullScale d| ≤ V)
    (hN : N ≤ 2 ^ 120) (hZ : N * V + O ≤ 2 ^ 120) :
    ∃ u a z, ieee single (toUnitR ieee (.fin x) d) = .fin u ∧ ieee double (.fin (u * s)) = .fin a ∧ ieee double (.fin (a + o)) = .fin z ∧
      |z - (x / Spec.fullScale d * s + o)| ≤ (N * V + O) / 2 ^ 23 + (N + 1) * 2 ^ (-146 : ℤ) := by
  obtain ⟨u, hu, -, -, -, -, -, eu⟩ := unit_pos d hx
  generalize x / Spec.fullScale d = v at *
  have hN0 : 0 ≤ N := (abs_nonneg s).trans hs
  have hO0 : 0 ≤ O := (abs_nonneg o).trans ho
  have hV0 : 0 ≤ V := (abs_nonneg v).trans hV
  have hNV : 0 ≤ N * V := mul_nonneg hN0 hV0
  have h148 := (two_zpow_pos (K := K) (-148)).le
  have e146 : (2 : K) ^ (-146 : ℤ) = 4 * 2 ^ (-148 : ℤ) := by
    rw [show (4 : K) = 2 ^ (2 : ℤ) by norm_num, ← zpow_add₀ two_ne_zero]; norm_num
  have h148' : (2 : K) ^ (-148 : ℤ) ≤ 1 / 2 ^ 147 := by
    rw [one_div, ← zpow_natCast, ← zpow_neg]
    exact zpow_le_zpow_right₀ one_le_two (by norm_num)
  have eη : (2 : K) ^ (-1075 : ℤ) ≤ 2 ^ (-148 : ℤ) := zpow_le_zpow_right₀ one_le_two (by norm_num)
  have hη0 := (two_zpow_pos (K := K) (-1075)).le
  -- the product
  have hus : |u * s - v * s| ≤ N * V * (9 / 8 * (1 / 2 ^ 24)) + N * 2 ^ (-148 : ℤ) := by
    rw [← sub_mul, abs_mul]
    calc |u - v| * |s| ≤ (V * (9 / 8 * (1 / 2 ^ 24)) + 2 ^ (-148 : ℤ)) * N :=
          mul_le_mul (eu.trans (by gcongr)) hs (abs_nonneg _) (by positivity)
      _ = _ := by ring
  have hvs : |v * s| ≤ N * V := by
    rw [abs_mul, mul_comm]
    exact mul_le_mul hs hV (abs_nonneg _) hN0
  have hNμ0 : 0 ≤ N * 2 ^ (-148 : ℤ) := mul_nonneg hN0 h148
  have hNμ : N * 2 ^ (-148 : ℤ) ≤ 1 := by
    have := mul_le_mul hN h148' h148 (by positivity)
    refine this.trans ?_
    norm_num
  have hη1 : (2 : K) ^ (-1075 : ℤ) ≤ 1 := zpow_le_one_of_nonpos₀ one_le_two (by norm_num)
  have big : (2 : K) ^ 120 * 4 + 4 ≤ 2 ^ 300 := by
    have h1 : (2 : K) ^ 130 ≤ 2 ^ 300 := pow_le_pow_right₀ one_le_two (by norm_num)
    refine le_trans ?_ h1
    norm_num
  have aus := abs_of_near hus hvs
  have ea := double_rounder.err (u * s)
  have aa := abs_of_near ea le_rfl
  have eaz := double_rounder.err (double.near (u * s) + o)
  have az := abs_add_le (double.near (u * s)) o
  rw [e146]
  generalize (2 : K) ^ (-148 : ℤ) = μ at *
  generalize (2 : K) ^ (-1075 : ℤ) = η at *
  have b1 : |u * s| ≤ 2 ^ 120 * 4 + 4 := by
    generalize (2 : K) ^ 120 = c at *
    linarith
  have b2 : |double.near (u * s) + o| ≤ 2 ^ 120 * 4 + 4 := by
    generalize (2 : K) ^ 120 = c at *
    linarith
  refine ⟨u, _, _, hu, double_fin (b1.trans big), double_fin (b2.trans big), ?_⟩
  clear big b1 b2 hZ hN
  generalize double.near (double.near (u * s) + o) = z at *
  generalize double.near (u * s) = a at *
  have t1 := abs_sub_le z (a + o) (v * s + o)
  have t2 : |a + o - (v * s + o)| ≤ |a - u * s| + |u * s - v * s| := by
    rw [add_sub_add_right_eq_sub]
    exact abs_sub_le _ _ _
  generalize N * V = Q at *
  have e : (N + 1) * (4 * μ) = 4 * (N * μ) + 4 * μ := by ring
  rw [e]
  generalize N * μ = ν at *
  refine t1.trans ((add_le_add eaz (t2.trans (add_le_add ea hus))).trans ?_)
  norm_num at *
  linarith

theorem luma_close {y w : Fin 3 → K} {e : K} (h : ∀ i, |y i - w i| ≤ e) : |Spec.luma y - Spec.luma w| ≤ e := by
  have h0 := abs_le.mp (h 0)
  have h1 := abs_le.mp (h 1)
  have h2 := abs_le.mp (h 2)
  unfold Spec.luma
  rw [abs_le]
  constructor <;> linarith [h0.1, h0.2, h1.1, h1.2, h2.1, h2.2]

/-- Changing the saturation, of colours that are close. -/
theorem saturate_close {y w : Fin 3 → K} {σ e : K} (h : ∀ i, |y i - w i| ≤ e) (i : Fin 3) :
    |(Spec.luma y + σ * (y i - Spec.luma y)) - (Spec.luma w + σ * (w i - Spec.luma w))| ≤ (|1 - σ| + |σ|) * e := by
  have e1 : (Spec.luma y + σ * (y i - Spec.luma y)) - (Spec.luma w + σ * (w i - Spec.luma w))
      = (1 - σ) * (Spec.luma y - Spec.luma w) + σ * (y i - w i) := by ring
  rw [e1, add_mul]
  refine (abs_add_le _ _).trans (add_le_add ?_ ?_)
  · rw [abs_mul]
    exact mul_le_mul_of_nonneg_left (luma_close h) (abs_nonneg _)
  · rw [abs_mul]
    exact mul_le_mul_of_nonneg_left (h i) (abs_nonneg _)

theorem gain_bounds (σ : K) : 1 ≤ |1 - σ| + |σ| ∧ |1 - σ| ≤ |1 - σ| + |σ| ∧ |σ| ≤ |1 - σ| + |σ| := by
  refine ⟨?_, by linarith [abs_nonneg σ], by linarith [abs_nonneg (1 - σ)]⟩
  have := abs_add_le (1 - σ) σ
  rwa [sub_add_cancel, abs_one] at this

/-- One pixel of style `Fwd`. -/
theorem cdlFwd_near (L : Arith K) {s o p : Fin 3 → K} {φ : Fin 3 → K → K} {σ N O V k : K} (d1 d2 : Depth) (hs : ∀ i, |s i| ≤ N) (ho : ∀ i, |o i| ≤ O)
    (hp : ∀ i, 0 < p i) (hL : ∀ i, Spec.PowerNear L (p i) (φ i)) (hφ : ∀ i, Spec.Curve (φ i) k) (hN : N ≤ 2 ^ 120)
    (hZ : N * V + O ≤ 2 ^ 120) (hσ : |σ| ≤ 2 ^ 120) {x : Fin 3 → K} (hx : ∀ i, Spec.IsSingle (x i)) (hV : ∀ i, |x i / Spec.fullScale d1| ≤ V) :
    ∃ out : Fin 3 → K, (∀ rest, cdlFwdR ieee L (finCdl s o p σ) d1 d2 (Spec.fins x ++ rest) = .ok (Spec.fins out ++ rest)) ∧
      ∀ i, Spec.IsSingle (out i) ∧ 0 ≤ out i ∧ out i ≤ Spec.fullScale d2 ∧
        |out i - Spec.Stage.eval (.grade (Spec.fullScale d1) (Spec.fullScale d2) s o φ σ) x i|
          ≤ Spec.fullScale d2 * ((|1 - σ| + |σ|) * (k * ((N * V + O) / 2 ^ 23 + (N + 1) * 2 ^ (-146 : ℤ)) + 1 / 2 ^ 21)) := by
  choose u a z h1 h2 h3 ez using fun i => sop_near d1 (hx i) (hs i) (ho i) (hV i) hN hZ
  have hc := fun i => clip_mem (z i)
  choose w hw ew using fun i => hL i (Spec.clip (z i)) (double_clip (h3 i)) (hc i).1 (hc i).2
  have h4 : ∀ i, pyPow L (.fin (Spec.clip (z i))) (.fin (p i)) = .ok (.fin (w i)) := fun i => by
    rw [pyPow_ok (hc i).1 (.inl (hp i)), hw i]
  have hφm := fun i => (hφ i).mem _ (hc i).1 (hc i).2
  have s40 : (1 : K) / 2 ^ 40 ≤ 1 / 2 ^ 30 := by norm_num
  have aw : ∀ i, |w i| ≤ 1 + 1 / 2 ^ 40 := fun i => abs_of_near (ew i) (by
    rw [abs_of_nonneg (hφm i).1]
    exact (hφm i).2)
  choose y h5 sy ey y0 y1 using fun i => single_op (aw i) (by
    refine le_trans (b := 2 ^ 1) ?_ (pow_le_pow_right₀ one_le_two (by norm_num))
    norm_num)
  have t150 := tiny_zpow (K := K) (n := -150) (by norm_num)
  have t148 := tiny_zpow (K := K) (n := -148) (by norm_num)
  have p148 := (two_zpow_pos (K := K) (-148)).le
  -- the curves
  have hk : 0 ≤ k := by
    have := (abs_nonneg _).trans ((hφ 0).close 0 1 le_rfl zero_le_one zero_le_one le_rfl)
    rwa [zero_sub, abs_neg, abs_one, mul_one] at this
  set D := (N * V + O) / 2 ^ 23 + (N + 1) * 2 ^ (-146 : ℤ) with hD
  set Y := Spec.graded (Spec.fullScale d1) s o φ x with hY
  have eY : ∀ i, |y i - Y i| ≤ k * D + 1 / 2 ^ 23 := by
    intro i
    have c1 : |φ i (Spec.clip (z i)) - Y i| ≤ k * D :=
      ((hφ i).close _ _ (hc i).1 (hc i).2 (clip_mem _).1 (clip_mem _).2).trans
        (mul_le_mul_of_nonneg_left ((clip_close _ _).trans (ez i)) hk)
    have c2 := ew i
    have c3 := ey i
    have c4 := abs_sub_le (y i) (w i) (Y i)
    have c5 := abs_sub_le (w i) (φ i (Spec.clip (z i))) (Y i)
    generalize (2 : K) ^ (-150 : ℤ) = μ at *
    norm_num at *
    linarith
  have ay : ∀ i, |y i| ≤ 2 := by
    intro i
    have := abs_of_near (ey i) (aw i)
    generalize (2 : K) ^ (-150 : ℤ) = μ at *
    norm_num at *
    linarith
  -- saturation
  obtain ⟨l, h6, el, -⟩ := lumaR_near y ay
  have al : |l| ≤ 3 := by
    have h : |Spec.luma y| ≤ 2 := by
      have := luma_close (y := y) (w := fun _ => 0) (e := 2) (by simpa using ay)
      simpa [Spec.luma] using this
    have := abs_of_near el h
    norm_num at *
    linarith
  choose q h7 eq using fun i => saturateR_near al (ay i) hσ
  obtain ⟨g1, g2, g3⟩ := gain_bounds σ
  have eQ : ∀ i, |q i - (Spec.luma Y + σ * (Y i - Spec.luma Y))| ≤ (|1 - σ| + |σ|) * (k * D + 1 / 2 ^ 23 + 3 * (1 / 2 ^ 47)) := by
    intro i
    have c1 := saturate_close (σ := σ) eY i
    have c2 : |(l + σ * (y i - l)) - (Spec.luma y + σ * (y i - Spec.luma y))| ≤ |1 - σ| * (1 / 2 ^ 47) := by
      have : (l + σ * (y i - l)) - (Spec.luma y + σ * (y i - Spec.luma y)) = (1 - σ) * (l - Spec.luma y) := by ring
      rw [this, abs_mul]
      exact mul_le_mul_of_nonneg_left el (abs_nonneg _)
    have c3 := abs_sub_le (q i) (l + σ * (y i - l)) (Spec.luma Y + σ * (Y i - Spec.luma Y))
    have c4 := abs_sub_le (l + σ * (y i - l)) (Spec.luma y + σ * (y i - Spec.luma y)) (Spec.luma Y + σ * (Y i - Spec.luma Y))
    have c5 : (1 + |σ|) * (1 / 2 ^ 47) ≤ 2 * (|1 - σ| + |σ|) * (1 / 2 ^ 47) := mul_le_mul_of_nonneg_right (by linarith) (by positivity)
    have c6 : |1 - σ| * (1 / 2 ^ 47) ≤ (|1 - σ| + |σ|) * (1 / 2 ^ 47) := mul_le_mul_of_nonneg_right g2 (by positivity)
    have c7 := eq i
    calc |q i - (Spec.luma Y + σ * (Y i - Spec.luma Y))| ≤ _ := c3
      _ ≤ (1 + |σ|) * (1 / 2 ^ 47) + (|1 - σ| * (1 / 2 ^ 47) + (|1 - σ| + |σ|) * (k * D + 1 / 2 ^ 23)) :=
        add_le_add c7 (c4.trans (add_le_add c2 c1))
      _ ≤ 2 * (|1 - σ| + |σ|) * (1 / 2 ^ 47) + ((|1 - σ| + |σ|) * (1 / 2 ^ 47) + (|1 - σ| + |σ|) * (k * D + 1 / 2 ^ 23)) :=
        add_le_add c5 (add_le_add_left c6 _)
      _ = _ := by ring
  have hq := fun i => clip_mem (q i)
  choose r h8 sr er r0 r1 using fun i => single_op (x := Spec.clip (q i)) (M := 1) (by rw [abs_of_nonneg (hq i).1]; exact (hq i).2)
    (one_le_pow₀ one_le_two)
  have rm : ∀ i, 0 ≤ r i ∧ r i ≤ 1 := fun i => ⟨r0 i (hq i).1, r1 i (hq i).2⟩
  choose out h9 so o0 o1 eo using fun i => back_pos d2 (sr i) (by
    rw [abs_of_nonneg (rm i).1]
    exact (rm i).2.trans (one_le_pow₀ one_le_two))
  refine ⟨out, fun rest => cdlFwdR_pixel ieee L s o p σ d1 d2 x u a z w y q r out l rest h1 h2 h3 h4 h5 (h6 rest) h7 h8 h9, fun i =>
    ⟨so i, o0 i (rm i).1, o1 i (rm i).2, ?_⟩⟩
  have hT1 := one_le_fullScale (K := K) d2
  simp only [Spec.Stage.eval, ← hY]
  have c1 := (clip_close (q i) (Spec.luma Y + σ * (Y i - Spec.luma Y))).trans (eQ i)
  have c2 := er i
  have c3 := abs_sub_le (r i) (Spec.clip (q i)) (Spec.clip (Spec.luma Y + σ * (Y i - Spec.luma Y)))
  have c4 := eo i
  have hrT : |r i * Spec.fullScale d2| ≤ Spec.fullScale d2 := by
    rw [abs_mul, abs_of_nonneg (rm i).1, abs_of_pos (fullScale_pos (K := K) d2)]
    exact mul_le_of_le_one_left (fullScale_pos (K := K) d2).le (rm i).2
  have hk2 : 0 ≤ k * D := by
    have := (abs_nonneg _).trans (ez 0)
    exact mul_nonneg hk this
  generalize Spec.clip (Spec.luma Y + σ * (Y i - Spec.luma Y)) = Q at *
  generalize (Spec.fullScale d2 : K) = T at *
  have c5 : |r i * T - Q * T| ≤ ((|1 - σ| + |σ|) * (k * D + 1 / 2 ^ 23 + 3 * (1 / 2 ^ 47)) + (1 * (1 / 2 ^ 24) + 2 ^ (-150 : ℤ))) * T := by
    rw [← sub_mul, abs_mul, abs_of_nonneg (by linarith : (0 : K) ≤ T)]
    exact mul_le_mul_of_nonneg_right (by linarith) (by linarith)
  have c6 := abs_sub_le (out i) (r i * T) (Q * T)
  have hT0 : (0 : K) ≤ T := by linarith
  have c7 : |r i * T| * (9 / 8 * (1 / 2 ^ 24)) + 2 ^ (-148 : ℤ) ≤ T * (9 / 8 * (1 / 2 ^ 24) + 1 / 2 ^ 100) := by
    have b1 : |r i * T| * (9 / 8 * (1 / 2 ^ 24)) ≤ T * (9 / 8 * (1 / 2 ^ 24)) := mul_le_mul_of_nonneg_right hrT (by positivity)
    have b2 : (2 : K) ^ (-148 : ℤ) ≤ T * (1 / 2 ^ 100) := t148.trans (le_mul_of_one_le_left (by positivity) hT1)
    rw [mul_add]
    exact add_le_add b1 b2
  have c8 : (9 / 8 * (1 / 2 ^ 24) + 1 / 2 ^ 100) + (1 * (1 / 2 ^ 24) + (2 : K) ^ (-150 : ℤ)) + (|1 - σ| + |σ|) * (k * D + 1 / 2 ^ 23 + 3 * (1 / 2 ^ 47))
      ≤ (|1 - σ| + |σ|) * (k * D + 1 / 2 ^ 21) := by
    have e : (|1 - σ| + |σ|) * (k * D + 1 / 2 ^ 21) - (|1 - σ| + |σ|) * (k * D + 1 / 2 ^ 23 + 3 * (1 / 2 ^ 47))
        = (|1 - σ| + |σ|) * (1 / 2 ^ 21 - 1 / 2 ^ 23 - 3 * (1 / 2 ^ 47)) := by ring
    have e2 : 1 * (1 / 2 ^ 21 - 1 / 2 ^ 23 - 3 * (1 / 2 ^ 47)) ≤ (|1 - σ| + |σ|) * (1 / 2 ^ 21 - 1 / 2 ^ 23 - 3 * (1 / 2 ^ 47)) :=
      mul_le_mul_of_nonneg_right g1 (by norm_num)
    have e3 : (9 / 8 * (1 / 2 ^ 24) + 1 / 2 ^ 100) + (1 * (1 / 2 ^ 24) + (1 : K) / 2 ^ 100) ≤ 1 * (1 / 2 ^ 21 - 1 / 2 ^ 23 - 3 * (1 / 2 ^ 47)) := by
      norm_num
    linarith
  have c9 := mul_le_mul_of_nonneg_left c8 hT0
  refine c6.trans (le_trans (add_le_add (c4.trans c7) c5) (le_trans (le_of_eq ?_) c9))
  ring

end CLF
