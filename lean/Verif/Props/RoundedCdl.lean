import Verif.Lemmas.RoundedList
import Verif.Props.RoundedList
import Mathlib.Analysis.SpecialFunctions.Pow.Deriv
import Mathlib.Analysis.Calculus.MeanValue

/-! # Property C136: the ASC CDL in IEEE arithmetic -/

set_option linter.unusedSectionVars false

namespace CLF

variable {K : Type} [Field K] [LinearOrder K] [IsStrictOrderedRing K] [FloorRing K]

/-- C136: a CDL node of style `Fwd` on pixels of `float32` numbers, with further channels.  The colours are finite `float32` numbers
between 0 and full scale, and off from slope, offset, curve and saturation of the exact ones by little; other channels stay. -/
theorem C136_node (L : Arith K) (compat : ℕ) (v : CdlValues K) (b : Base K) (din dout : AVal) (s o p : Fin 3 → K) (φ : Fin 3 → K → K) (σ : K)
    (h : StyledNode b din dout (.str "Fwd")) (hv : CdlIs v s o p σ) (hp : ∀ i, 0 < p i) (hL : ∀ i, Spec.PowerNear L (p i) (φ i))
    (B N O k : K) (hs : ∀ i, |s i| ≤ N) (ho : ∀ i, |o i| ≤ O) (hφ : ∀ i, Spec.Curve (φ i) k) (hN : N ≤ 2 ^ 120)
    (hZ : N * (B / Spec.fullScale (some din)) + O ≤ 2 ^ 120) (hσ : |σ| ≤ 2 ^ 120)
    (stride : ℕ) (pixels : List ((Fin 3 → K) × List (Flt K))) (hst : ∀ q ∈ pixels, q.2.length + 3 = stride) (hs3 : 3 ≤ stride)
    (hpx : ∀ q ∈ pixels, ∀ i, Spec.IsSingle (q.1 i) ∧ |q.1 i| ≤ B) :
    ∃ (r : Res K) (g : (Fin 3 → K) → Fin 3 → K), cdlProcessR ieee L compat v b (Spec.image pixels) stride = .ok r ∧
      r.out = Spec.image (pixels.map fun q => (g q.1, q.2)) ∧
      ∀ q ∈ pixels, ∀ i, Spec.IsSingle (g q.1 i) ∧ 0 ≤ g q.1 i ∧ g q.1 i ≤ Spec.fullScale (some dout) ∧
        |g q.1 i - Spec.Stage.eval (.grade (Spec.fullScale (some din)) (Spec.fullScale (some dout)) s o φ σ) q.1 i|
          ≤ Spec.fullScale (some dout) * ((|1 - σ| + |σ|) * (k * ((N * (B / Spec.fullScale (some din)) + O) / 2 ^ 23
            + (N + 1) * 2 ^ (-146 : ℤ)) + 1 / 2 ^ 21)) := by
  have hS := fullScale_pos (K := K) (some din)
  have key : ∀ x : Fin 3 → K, ∃ out : Fin 3 → K, Small B x →
      (∀ rest, cdlFwdR ieee L (finCdl s o p σ) (some din) (some dout) (Spec.fins x ++ rest) = .ok (Spec.fins out ++ rest)) ∧
      ∀ i, Spec.IsSingle (out i) ∧ 0 ≤ out i ∧ out i ≤ Spec.fullScale (some dout) ∧
        |out i - Spec.Stage.eval (.grade (Spec.fullScale (some din)) (Spec.fullScale (some dout)) s o φ σ) x i|
          ≤ Spec.fullScale (some dout) * ((|1 - σ| + |σ|) * (k * ((N * (B / Spec.fullScale (some din)) + O) / 2 ^ 23
            + (N + 1) * 2 ^ (-146 : ℤ)) + 1 / 2 ^ 21)) := by
    intro x
    by_cases hx : Small B x
    · obtain ⟨out, h1, h2⟩ := cdlFwd_near L (some din) (some dout) hs ho hp hL hφ hN hZ hσ (fun i => (hx i).1) (fun i => by
        rw [abs_div, abs_of_pos hS]
        exact div_le_div_of_nonneg_right (hx i).2 hS.le)
      exact ⟨out, fun _ => ⟨h1, h2⟩⟩
    · exact ⟨fun _ => 0, fun h => absurd h hx⟩
  choose F hF using key
  obtain ⟨r, h1, h2⟩ := cdlR_image ieee L compat v b din dout (.str "Fwd") h (.inr (by decide)) stride pixels hst hs3 F (by
      intro q hq
      unfold cdlPixelR
      rw [if_pos (.inl rfl), hv.resolve]
      exact (hF q.1 (hpx q hq)).1 q.2)
  exact ⟨r, F, h1, h2, fun q hq => (hF q.1 (hpx q hq)).2⟩

/-! ## Real powers -/

/-- C136: over the reals the curves of powers that are at least 1 are as the theorems ask for: between 0 and 1, they stay there and
stretch by at most the power. -/
theorem C136_real (p : ℝ) (hp : 1 ≤ p) : Spec.Curve (fun b : ℝ => b ^ p) p where
  mem b h0 h1 := ⟨Real.rpow_nonneg h0 _, Real.rpow_le_one h0 h1 (by linarith)⟩
  close x y hx hx1 hy hy1 := by
    have := Convex.norm_image_sub_le_of_norm_deriv_le (f := fun x : ℝ => x ^ p) (s := Set.Icc 0 1) (C := p) (x := y) (y := x)
      (fun z _ => (Real.hasDerivAt_rpow_const (.inr hp)).differentiableAt) (fun z hz => by
        rw [(Real.hasDerivAt_rpow_const (.inr hp)).deriv, Real.norm_eq_abs, abs_mul, abs_of_nonneg (by linarith : (0 : ℝ) ≤ p),
          abs_of_nonneg (Real.rpow_nonneg hz.1 _)]
        exact mul_le_of_le_one_right (by linarith) (Real.rpow_le_one hz.1 hz.2 (by linarith)))
      (convex_Icc 0 1) ⟨hy, hy1⟩ ⟨hx, hx1⟩
    simpa [Real.norm_eq_abs] using this

/-! ## The neutral CDL -/

/-- `v` is black or not too dark: 0, or between a millionth of full scale and full scale. -/
def Spec.NotDark (d : AVal) (v : K) : Prop :=
  v = 0 ∨ (Spec.fullScale (some d) / 2 ^ 20 ≤ v ∧ v ≤ Spec.fullScale (some d))

/-- Colours that are 0 keep it: the luma cancels. -/
theorem saturateR_zero {l : K} (hl : double.near l = l) (hb : |l| ≤ 3) : saturateR ieee (.fin l) (.fin 1) (.fin 0) = .fin 0 := by
  have big := thousand_le (K := K)
  have h1 : ieee double (.fin (0 - l)) = .fin (-l) := by
    rw [zero_sub, double_fin (le_trans (by rw [abs_neg]; linarith) big), Fmt.near_neg, hl]
  have h2 : ieee double (.fin (1 * -l)) = .fin (-l) := by
    rw [one_mul, double_fin (le_trans (by rw [abs_neg]; linarith) big), Fmt.near_neg, hl]
  refine saturateR_fin ieee l 1 0 (-l) (-l) 0 h1 h2 ?_
  rw [add_neg_cancel, double_fin (by rw [abs_zero]; positivity), Fmt.near_zero]

/-- One pixel. -/
theorem cdlNeutral (L : Arith K) (hL : ∀ b : K, 0 ≤ b → b ≤ 1 → L.pow (.fin b) (.fin 1) = .fin b) (d : AVal) (x : Fin 3 → K)
    (hx : ∀ i, Spec.PixelNumber d (x i) ∧ Spec.NotDark d (x i)) (rest : List (Flt K)) :
    cdlFwdR ieee L (finCdl (fun _ => 1) (fun _ => 0) (fun _ => 1) 1) (some d) (some d) (Spec.fins x ++ rest) = .ok (Spec.fins x ++ rest) := by
  have hS := fullScale_pos (K := K) (some d)
  set u := fun i => unitF d (x i) with hu
  have one : ∀ f : Fmt, f = single ∨ f = double → f.near (1 : K) = 1 := by
    rintro f (rfl | rfl)
    · exact single_one
    · exact double_one
  -- what the colours are on the unit scale
  have mem : ∀ i, u i = 0 ∨ (1 / 2 ^ 20 ≤ u i ∧ u i ≤ 1) := by
    intro i
    rcases (hx i).2 with h | ⟨h1, h2⟩
    · left
      simp only [hu, unitF, h, zero_div, Fmt.near_zero]
    · right
      have e20 : ∀ f : Fmt, f = single ∨ f = double → f.near (1 / 2 ^ 20 : K) = 1 / 2 ^ 20 := by
        rintro f (rfl | rfl)
        · simpa using Fmt.near_short (K := K) single 1 (-20) (by decide) (by decide)
        · simpa using Fmt.near_short (K := K) double 1 (-20) (by decide) (by decide)
      have a1 : (1 : K) / 2 ^ 20 ≤ x i / Spec.fullScale (some d) := by
        rw [le_div_iff₀ hS]
        linarith
      have a2 : x i / Spec.fullScale (some d) ≤ 1 := (div_le_one hS).mpr h2
      constructor
      · have := Fmt.near_mono single (Fmt.near_mono double a1)
        rwa [e20 _ (.inr rfl), e20 _ (.inl rfl)] at this
      · have := Fmt.near_mono single (Fmt.near_mono double a2)
        rwa [one _ (.inr rfl), one _ (.inl rfl)] at this
  have mem' : ∀ i, 0 ≤ u i ∧ u i ≤ 1 := by
    intro i
    rcases mem i with h | ⟨h, h'⟩
    · rw [h]; exact ⟨le_rfl, zero_le_one⟩
    · exact ⟨le_trans (by positivity) h, h'⟩
  have su : ∀ i, Spec.IsSingle (u i) := fun i => (unitR_eq d (hx i).1.single).2
  have au : ∀ i, |u i| ≤ 2 := fun i => by rw [abs_of_nonneg (mem' i).1]; linarith [(mem' i).2]
  have clipu : ∀ i, Spec.clip (u i) = u i := fun i => clip_of_mem (mem' i).1 (mem' i).2
  have big := thousand_le (K := K)
  have dbl : ∀ i, ieee double (.fin (u i)) = .fin (u i) := fun i => by
    rw [double_fin (le_trans (by linarith [au i]) big), (su i).double]
  have sgl : ∀ i, ieee single (.fin (u i)) = .fin (u i) := fun i => su i
  obtain ⟨l, h6, el, dl⟩ := lumaR_near u au
  have al : |l| ≤ 3 := by
    have h : |Spec.luma u| ≤ 2 := by
      have := luma_close (y := u) (w := fun _ => 0) (e := 2) (by simpa using au)
      simpa [Spec.luma] using this
    have := abs_of_near el h
    norm_num at *
    linarith
  have sat : ∀ i, ∃ q, saturateR ieee (.fin l) (.fin 1) (.fin (u i)) = .fin q ∧ ieee single (.fin (Spec.clip q)) = .fin (u i) := by
    intro i
    rcases mem i with h | ⟨h1, h2⟩
    · refine ⟨0, by rw [h]; exact saturateR_zero dl al, ?_⟩
      rw [h, clip_of_mem le_rfl zero_le_one, ← h]
      exact sgl i
    · obtain ⟨q, hq, eq⟩ := saturateR_near (σ := 1) al (au i) (by rw [abs_one]; exact one_le_pow₀ one_le_two)
      refine ⟨q, hq, ?_⟩
      have e : l + 1 * (u i - l) = u i := by ring
      rw [e] at eq
      have c1 := clip_close q (u i)
      rw [clipu] at c1
      have c2 := clip_mem q
      rw [single_fin (by rw [abs_of_nonneg c2.1]; exact c2.2.trans (one_le_pow₀ one_le_two))]
      congr 1
      refine Fmt.near_absorb single (su i).near (c1.trans (eq.trans ?_))
      rw [abs_one, abs_of_nonneg (mem' i).1]
      have : (single.mant : ℕ) = 23 := rfl
      rw [this, le_div_iff₀ (by positivity)]
      refine le_trans ?_ h1
      norm_num
  choose q h7 h8 using sat
  refine cdlFwdR_pixel ieee L _ _ _ 1 (some d) (some d) x u u u u u q u x l rest (fun i => (unitR_eq d (hx i).1.single).1)
    (fun i => by rw [mul_one]; exact dbl i) (fun i => by rw [add_zero]; exact dbl i)
    (fun i => by rw [clipu, pyPow_ok (mem' i).1 (.inl one_pos), hL _ (mem' i).1 (mem' i).2]) sgl (h6 rest) h7 h8 (fun i => ?_)
  rw [(backR_eq d (hx i).1 (hx i).1 (su i) le_rfl le_rfl).1]
  exact congrArg _ (hx i).1.back

/-- C136: a CDL node of style `Fwd` whose parameters are all neutral leaves pixels as they are, exactly, in IEEE arithmetic, if their
colours are black or not too dark.  All pixels of an integer depth are like that. -/
theorem C136_neutral (L : Arith K) (hL : ∀ b : K, 0 ≤ b → b ≤ 1 → L.pow (.fin b) (.fin 1) = .fin b) (compat : ℕ) (v : CdlValues K) (b : Base K)
    (d : AVal) (h : StyledNode b d d (.str "Fwd")) (hv : CdlIs v (fun _ => 1) (fun _ => 0) (fun _ => 1) 1)
    (stride : ℕ) (pixels : List ((Fin 3 → K) × List (Flt K))) (hst : ∀ q ∈ pixels, q.2.length + 3 = stride) (hs3 : 3 ≤ stride)
    (hpx : ∀ q ∈ pixels, ∀ i, Spec.PixelNumber d (q.1 i) ∧ Spec.NotDark d (q.1 i)) :
    ∃ r : Res K, cdlProcessR ieee L compat v b (Spec.image pixels) stride = .ok r ∧ r.out = Spec.image pixels := by
  obtain ⟨r, h1, h2⟩ := cdlR_image ieee L compat v b d d (.str "Fwd") h (.inr (by decide)) stride pixels hst hs3 id (by
      intro q hq
      unfold cdlPixelR
      rw [if_pos (.inl rfl), hv.resolve]
      exact cdlNeutral L hL d q.1 (hpx q hq) q.2)
  exact ⟨r, h1, by simpa using h2⟩

/-- C136: the integers of an integer depth are black or not too dark. -/
theorem C136_codes (d : AVal) (n k : ℕ) (hd : (n, d) ∈ [(8, AVal.str "8i"), (10, .str "10i"), (12, .str "12i"), (16, .str "16i")])
    (hk : k < 2 ^ n) : Spec.PixelNumber d (k : K) ∧ Spec.NotDark d (k : K) := by
  refine ⟨.inl ⟨n, k, hd, hk, rfl⟩, ?_⟩
  obtain ⟨hS, hn⟩ := fullScale_bits (K := K) hd
  rcases Nat.eq_zero_or_pos k with rfl | hp
  · exact .inl Nat.cast_zero
  · right
    have h1 : (1 : K) ≤ k := by exact_mod_cast hp
    have h2 : (k : K) + 1 ≤ 2 ^ n := by exact_mod_cast hk
    have h3 : (2 : K) ^ n ≤ 2 ^ 20 := pow_le_pow_right₀ one_le_two (by omega)
    rw [hS]
    constructor
    · rw [div_le_iff₀ (by positivity)]
      nlinarith
    · linarith

/-- C136: dark floats are lost: the neutral CDL turns the red of (2^-60, 1, 0) into 0, as taking luma off and adding it again is done
in `float64`. -/
theorem C136_neutral_fails : ∃ (b : Base ℚ) (x : List (Flt ℚ)), StyledNode b (.str "32f") (.str "32f") (.str "Fwd") ∧
    x = Spec.fins ![1 / 2 ^ 60, 1, 0] ∧ (∀ i, Spec.IsSingle (![1 / 2 ^ 60, 1, 0] i : ℚ)) ∧
    (cdlProcessR ieee ratArith 0 {} b x 3).map (·.out) = .ok (Spec.fins ![0, 1, 0]) := by
  refine ⟨{ attrs := [("inBitDepth", .str "32f"), ("outBitDepth", .str "32f"), ("style", .str "Fwd")] }, _, ⟨rfl, rfl, rfl⟩, rfl, ?_, ?_⟩
  · unfold Spec.IsSingle
    decide +kernel
  · decide +kernel

/-! ## Examples -/

/-- Slopes 2, 1 and 1/2 and some saturation, from 10 bit to floats, with alpha. -/
example : ∃ (r : Res ℚ) (g : (Fin 3 → ℚ) → Fin 3 → ℚ),
    cdlProcessR ieee ratArith 0 { slope := some (Spec.fins ![2, 1, 1 / 2]), saturation := some (.fin (1 / 2)) }
      { attrs := [("inBitDepth", .str "10i"), ("outBitDepth", .str "32f"), ("style", .str "Fwd")] }
      (Spec.image [(![100, 200, 300], [.fin 7]), (![1023, 0, 1], [.nan])]) 4 = .ok r ∧
    r.out = Spec.image ([(![100, 200, 300], [.fin 7]), (![1023, 0, 1], [.nan])].map fun q => (g q.1, q.2)) := by
  obtain ⟨r, g, h1, h2, -⟩ := C136_node (K := ℚ) ratArith 0 { slope := some (Spec.fins ![2, 1, 1 / 2]), saturation := some (.fin (1 / 2)) }
    { attrs := [("inBitDepth", .str "10i"), ("outBitDepth", .str "32f"), ("style", .str "Fwd")] } (.str "10i") (.str "32f")
    ![2, 1, 1 / 2] (fun _ => 0) (fun _ => 1) (fun _ b => b) (1 / 2) ⟨rfl, rfl, rfl⟩ ⟨.inl rfl, .inr ⟨rfl, rfl⟩, .inr ⟨rfl, rfl⟩, .inl rfl⟩
    (fun _ => one_pos) (fun _ b _ _ _ => ⟨b, rfl, by simp⟩) 1023 2 0 1 (by decide +kernel) (by simp) (fun _ => ⟨fun b h0 h1 => ⟨h0, h1⟩, by simp⟩)
    (by norm_num) (by decide +kernel) (by decide +kernel) 4 [(![100, 200, 300], [.fin 7]), (![1023, 0, 1], [.nan])] (by decide) (by decide) (by
      unfold Spec.IsSingle
      simp only [List.mem_cons, List.not_mem_nil, or_false, forall_eq_or_imp, forall_eq]
      decide +kernel)
  exact ⟨r, g, h1, h2⟩

/-- The curve of gamma 2.2 over the reals. -/
example : Spec.Curve (fun b : ℝ => b ^ (2.2 : ℝ)) 2.2 := C136_real _ (by norm_num)

/-- Ten bit pixels through the neutral CDL. -/
example : ∃ r : Res ℚ, cdlProcessR ieee ratArith 0 {} { attrs := [("inBitDepth", .str "10i"), ("outBitDepth", .str "10i"), ("style", .str "Fwd")] }
    (Spec.image [(![100, 200, 300], [.fin 7]), (![1023, 0, 1], [.nan])]) 4 = .ok r ∧
    r.out = Spec.image [(![100, 200, 300], [.fin 7]), (![1023, 0, 1], [.nan])] := by
  refine C136_neutral ratArith (fun b _ _ => rfl) 0 {} _ (.str "10i") ⟨rfl, rfl, rfl⟩ ⟨.inr ⟨rfl, rfl⟩, .inr ⟨rfl, rfl⟩, .inr ⟨rfl, rfl⟩, .inr ⟨rfl, rfl⟩⟩
    4 _ (by decide) (by decide) ?_
  have c : ∀ k : ℕ, k < 1024 → Spec.PixelNumber (.str "10i") (k : ℚ) ∧ Spec.NotDark (.str "10i") (k : ℚ) := fun k h => C136_codes _ 10 k (by decide) h
  simp only [List.mem_cons, List.not_mem_nil, or_false, forall_eq_or_imp, forall_eq, Fin.forall_fin_succ, IsEmpty.forall_iff, and_true]
  exact ⟨⟨c 100 (by decide), c 200 (by decide), c 300 (by decide)⟩, ⟨by simpa using c 1023 (by decide), by simpa using c 0 (by decide), by simpa using c 1 (by decide)⟩⟩

/-- A float that is not too dark. -/
example : Spec.PixelNumber (.str "32f") (1 / 2 ^ 20 : ℚ) ∧ Spec.NotDark (.str "32f") (1 / 2 ^ 20 : ℚ) := by
  refine ⟨.inr ⟨by decide, by unfold Spec.IsSingle; decide +kernel⟩, .inr (by decide +kernel)⟩

/-- A list of two CDL nodes, gamma 2.2 and then slope 2 with half the saturation, for real powers and a library that computes them up to
`2^-40`. -/
example (lib : Arith ℝ) (h22 : Spec.PowerNear lib 2.2 fun b => b ^ (2.2 : ℝ)) (h1 : Spec.PowerNear lib 1 fun b => b) (pixels : List (Fin 3 → ℝ))
    (hp : ∀ p ∈ pixels, ∀ i, Spec.IsSingle (p i) ∧ |p i| ≤ 1) :
    ∃ g : (Fin 3 → ℝ) → Fin 3 → ℝ,
      processListR ⟨ieee, fun _ => single, lib⟩ 15
        [.leaf (.cdl true { power := some (Spec.fins (n := 3) fun _ => 2.2) }) ⟨[("inBitDepth", .str "32f"), ("outBitDepth", .str "32f"), ("style", .str "Fwd")], [], [], []⟩,
         .leaf (.cdl true { slope := some (Spec.fins (n := 3) fun _ => 2), saturation := some (.fin (1 / 2)) })
          ⟨[("inBitDepth", .str "32f"), ("outBitDepth", .str "32f"), ("style", .str "Fwd")], [], [], []⟩] (Spec.rgb pixels) 3
        = .ok (Spec.rgb (pixels.map g)) ∧
      ∀ p ∈ pixels, ∀ i, Spec.IsSingle (g p i) ∧ |g p i - Spec.evalChain [.grade 1 1 (fun _ => 1) (fun _ => 0) (fun _ b => b ^ (2.2 : ℝ)) 1,
        .grade 1 1 (fun _ => 2) (fun _ => 0) (fun _ b => b) (1 / 2)] p i| ≤ 1 / 10 ^ 5 := by
  have hf : Spec.fullScale (K := ℝ) (some (.str "32f")) = 1 := fullScale_none (by decide)
  have hb : ∃ e ≤ (1 : ℝ) / 10 ^ 5, Spec.Budget [.grade 1 1 (fun _ => 1) (fun _ => 0) (fun _ b => b ^ (2.2 : ℝ)) 1,
        .grade 1 1 (fun _ => 2) (fun _ => 0) (fun _ b => b) (1 / 2)] (1 : ℝ) 0 e := by
    refine ⟨_, ?_, .cons (.grade (N := 1) (O := 0) (k := 2.2) (G := 1) ?_ ?_ (fun _ => C136_real _ (by norm_num)) ?_ ?_ ?_ ?_)
      (.cons (.grade (N := 2) (O := 0) (k := 1) (G := 1) ?_ ?_ (fun _ => ⟨fun b h0 h1 => ⟨h0, h1⟩, by simp⟩) ?_ ?_ ?_ ?_) .nil)⟩
    all_goals norm_num
  obtain ⟨e, he, hb⟩ := hb
  have n1 : Implements ⟨ieee, fun _ => single, lib⟩ (.leaf (.cdl true { power := some (Spec.fins (n := 3) fun _ => 2.2) })
      ⟨[("inBitDepth", .str "32f"), ("outBitDepth", .str "32f"), ("style", .str "Fwd")], [], [], []⟩) (.grade _ _ _ _ _ _) :=
    .cdl (din := .str "32f") (dout := .str "32f") (p := fun _ => 2.2) ⟨rfl, rfl, rfl⟩
        ⟨.inr ⟨rfl, rfl⟩, .inr ⟨rfl, rfl⟩, .inl rfl, .inr ⟨rfl, rfl⟩⟩ (by norm_num) fun _ => h22
  have n2 : Implements ⟨ieee, fun _ => single, lib⟩ (.leaf (.cdl true { slope := some (Spec.fins (n := 3) fun _ => 2), saturation := some (.fin (1 / 2)) })
      ⟨[("inBitDepth", .str "32f"), ("outBitDepth", .str "32f"), ("style", .str "Fwd")], [], [], []⟩) (.grade _ _ _ _ _ _) :=
    .cdl (din := .str "32f") (dout := .str "32f") (p := fun _ => 1) ⟨rfl, rfl, rfl⟩
        ⟨.inl rfl, .inr ⟨rfl, rfl⟩, .inr ⟨rfl, rfl⟩, .inl rfl⟩ (by norm_num) fun _ => h1
  rw [hf] at n1 n2
  obtain ⟨g, k1, k2⟩ := C133_chain ⟨ieee, fun _ => single, lib⟩ rfl 15 _ _ (.cons n1 (.cons n2 .nil))
    (by simp only [List.mem_cons, List.not_mem_nil, or_false]; rintro n (rfl | rfl) <;> rfl) 1 e hb pixels hp
  exact ⟨g, k1, fun p hp' i => ⟨(k2 p hp' i).1, (k2 p hp' i).2.trans he⟩⟩

end CLF
