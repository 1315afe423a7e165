import Verif.Lemmas.RoundedCdl
import Verif.Spec.OpenGrade

/-!
# The ASC CDL without clamping in IEEE arithmetic: lemmas
-/

set_option linter.unusedSectionVars false

namespace CLF

variable {K : Type} [Field K] [LinearOrder K] [IsStrictOrderedRing K] [FloorRing K]

theorem open_big {C : K} (hC : C ≤ 2 ^ 100) : 1000 * C ≤ 2 ^ 300 := by
  refine (mul_le_mul_of_nonneg_left hC (by norm_num)).trans ?_
  have h : (2 : K) ^ 110 ≤ 2 ^ 300 := pow_le_pow_right₀ one_le_two (by norm_num)
  refine le_trans ?_ h
  norm_num

/-- The luma of numbers that are at most `2 C` in size. -/
theorem lumaR_open (y : Fin 3 → K) {C : K} (h1C : 1 ≤ C) (hC : C ≤ 2 ^ 100) (hy : ∀ i, |y i| ≤ 2 * C) :
    ∃ l, (∀ rest, lumaR ieee (Spec.fins y ++ rest) = .ok (.fin l)) ∧ |l - Spec.luma y| ≤ C * (1 / 2 ^ 47) := by
  have big := open_big hC
  have one300 : (1 : K) ≤ 2 ^ 300 := one_le_pow₀ one_le_two
  have e48 : C * (1 / 2 ^ 47) = 32 * (C * (1 / 2 ^ 52)) := by ring
  have small : C * (1 / 2 ^ 52) ≤ C * (1 / 1000) := mul_le_mul_of_nonneg_left (by norm_num) (by linarith)
  have small0 : 0 ≤ C * (1 / 2 ^ 52) := mul_nonneg (by linarith) (by positivity)
  rw [e48]
  have prod : ∀ k y : K, 0 ≤ k → k ≤ 1 → |y| ≤ 2 * C → ∃ c p, ieee double (.fin k) = .fin c ∧ ieee double (.fin (c * y)) = .fin p ∧
      |p - k * y| ≤ 5 * (C * (1 / 2 ^ 52)) ∧ |k * y| ≤ 2 * C := by
    intro k y h0 h1 hy
    obtain ⟨c, hc, ec⟩ := double_op (x := k) (M := 1) (by rwa [abs_of_nonneg h0]) le_rfl one300
    have hcy : |c * y - k * y| ≤ 2 * (C * (1 / 2 ^ 52)) := by
      rw [← sub_mul, abs_mul, mul_comm]
      exact (mul_le_mul hy ec (abs_nonneg _) (by linarith)).trans_eq (by ring)
    have hky : |k * y| ≤ 2 * C := by
      rw [abs_mul, abs_of_nonneg h0]
      have := mul_le_mul h1 hy (abs_nonneg y) zero_le_one
      linarith
    have hM := abs_of_near hcy hky
    obtain ⟨p, hp, ep⟩ := double_op (x := c * y) (M := 3 * C) (by linarith) (by linarith) (le_trans (by linarith) big)
    refine ⟨c, p, hc, hp, ?_, hky⟩
    have := abs_sub_le p (c * y) (k * y)
    rw [mul_assoc] at ep
    linarith
  obtain ⟨c0, p0, k0, h0, e0, b0⟩ := prod (2126 / 10000) (y 0) (by norm_num) (by norm_num) (hy 0)
  obtain ⟨c1, p1, k1, h1, e1, b1⟩ := prod (7152 / 10000) (y 1) (by norm_num) (by norm_num) (hy 1)
  obtain ⟨c2, p2, k2, h2, e2, b2⟩ := prod (722 / 10000) (y 2) (by norm_num) (by norm_num) (hy 2)
  have a0 := abs_of_near e0 b0
  have a1 := abs_of_near e1 b1
  have a2 := abs_of_near e2 b2
  obtain ⟨t, ht, et⟩ := double_op (x := p0 + p1) (M := 5 * C) ((abs_add_le _ _).trans (by linarith)) (by linarith) (le_trans (by linarith) big)
  rw [mul_assoc] at et
  have at' := abs_of_near et ((abs_add_le p0 p1).trans (add_le_add a0 a1))
  obtain ⟨l, hl, el⟩ := double_op (x := t + p2) (M := 8 * C) ((abs_add_le _ _).trans (by linarith)) (by linarith) (le_trans (by linarith) big)
  rw [mul_assoc] at el
  refine ⟨l, fun rest => lumaR_fins ieee y rest c0 c1 c2 p0 p1 p2 t l k0 k1 k2 h0 h1 h2 ht hl, ?_⟩
  unfold Spec.luma
  generalize (2126 / 10000 : K) * y 0 = d0 at *
  generalize (7152 / 10000 : K) * y 1 = d1 at *
  generalize (722 / 10000 : K) * y 2 = d2 at *
  generalize C * (1 / 2 ^ 52) = ε at *
  rw [abs_le] at e0 e1 e2 et el ⊢
  constructor <;> linarith [e0.1, e0.2, e1.1, e1.2, e2.1, e2.2, et.1, et.2, el.1, el.2]

/-- The change of saturation, of numbers that are at most `2 C` in size. -/
theorem saturateR_open {l σ y C : K} (h1C : 1 ≤ C) (hC : C ≤ 2 ^ 100) (hσC : |σ| * C ≤ 2 ^ 100) (hl : |l| ≤ 3 * C) (hy : |y| ≤ 2 * C) :
    ∃ q, saturateR ieee (.fin l) (.fin σ) (.fin y) = .fin q ∧ |q - (l + σ * (y - l))| ≤ (1 + |σ|) * (C * (1 / 2 ^ 47)) := by
  have hσ0 := abs_nonneg σ
  have hP0 : 0 ≤ |σ| * C := mul_nonneg hσ0 (by linarith)
  have big : 4 * C + 7 * (|σ| * C) ≤ 2 ^ 300 := by
    have h1 := open_big hC
    have h2 := open_big hσC
    generalize (2 : K) ^ 300 = c at *
    linarith
  have big5 : 5 * C ≤ 2 ^ 300 := le_trans (by linarith) (open_big hC)
  have e48 : (1 + |σ|) * (C * (1 / 2 ^ 47)) = 32 * (C * (1 / 2 ^ 52)) + 32 * (|σ| * C * (1 / 2 ^ 52)) := by ring
  rw [e48]
  have small : C * (1 / 2 ^ 52) ≤ C * (1 / 1000) := mul_le_mul_of_nonneg_left (by norm_num) (by linarith)
  have small0 : 0 ≤ C * (1 / 2 ^ 52) := mul_nonneg (by linarith) (by positivity)
  have smallP : |σ| * C * (1 / 2 ^ 52) ≤ |σ| * C * (1 / 1000) := mul_le_mul_of_nonneg_left (by norm_num) hP0
  have smallP0 : 0 ≤ |σ| * C * (1 / 2 ^ 52) := mul_nonneg hP0 (by positivity)
  have hyl : |y - l| ≤ 5 * C := (abs_sub y l).trans (by linarith)
  obtain ⟨d, hd, ed⟩ := double_op (x := y - l) (M := 5 * C) hyl (by linarith) big5
  rw [mul_assoc] at ed
  have ad := abs_of_near ed hyl
  have hσd : |σ * d| ≤ 6 * (|σ| * C) := by
    rw [abs_mul]
    exact (mul_le_mul_of_nonneg_left (by linarith : |d| ≤ 6 * C) hσ0).trans_eq (by ring)
  obtain ⟨m, hm, em⟩ := double_op (x := σ * d) (M := 6 * (|σ| * C) + C) (by linarith) (by linarith) (le_trans (by linarith) big)
  have em' : (6 * (|σ| * C) + C) * (1 / 2 ^ 52) = 6 * (|σ| * C * (1 / 2 ^ 52)) + C * (1 / 2 ^ 52) := by ring
  rw [em'] at em
  have am := abs_of_near em hσd
  obtain ⟨q, hq, eq⟩ := double_op (x := l + m) (M := 4 * C + 7 * (|σ| * C)) ((abs_add_le _ _).trans (by linarith)) (by linarith) big
  have eq' : (4 * C + 7 * (|σ| * C)) * (1 / 2 ^ 52) = 4 * (C * (1 / 2 ^ 52)) + 7 * (|σ| * C * (1 / 2 ^ 52)) := by ring
  rw [eq'] at eq
  refine ⟨q, saturateR_fin ieee l σ y d m q hd hm hq, ?_⟩
  have e1 : |σ * d - σ * (y - l)| ≤ 5 * (|σ| * C * (1 / 2 ^ 52)) := by
    rw [← mul_sub, abs_mul]
    exact (mul_le_mul_of_nonneg_left ed hσ0).trans_eq (by ring)
  generalize C * (1 / 2 ^ 52) = ε at *
  generalize |σ| * C * (1 / 2 ^ 52) = ε' at *
  generalize σ * (y - l) = w at *
  rw [abs_le] at eq em e1 ⊢
  constructor <;> linarith [eq.1, eq.2, em.1, em.2, e1.1, e1.2]

/-- One pixel of style `FwdNoClamp`, for any rounding. -/
theorem cdlFwdNoClampR_pixel (R : Rounding K) (L : Arith K) (s o p : Fin 3 → K) (σ : K) (d1 d2 : Depth) (x u a z w y q r out : Fin 3 → K) (l : K)
    (rest : List (Flt K))
    (h1 : ∀ i, R single (toUnitR R (.fin (x i)) d1) = .fin (u i)) (h2 : ∀ i, R double (.fin (u i * s i)) = .fin (a i))
    (h3 : ∀ i, R double (.fin (a i + o i)) = .fin (z i))
    (h4 : ∀ i, (z i < 0 ∧ w i = z i) ∨ (0 ≤ z i ∧ L.pow (.fin (z i)) (.fin (p i)) = .fin (w i))) (h5 : ∀ i, R single (.fin (w i)) = .fin (y i))
    (h6 : lumaR R (Spec.fins y ++ rest) = .ok (.fin l)) (h7 : ∀ i, saturateR R (.fin l) (.fin σ) (.fin (y i)) = .fin (q i))
    (h8 : ∀ i, R single (.fin (q i)) = .fin (r i)) (h9 : ∀ i, R single (fromUnitR R (.fin (r i)) d2) = .fin (out i)) :
    cdlFwdNoClampR R L (finCdl s o p σ) d1 d2 (Spec.fins x ++ rest) = .ok (Spec.fins out ++ rest) := by
  unfold cdlFwdNoClampR
  rw [chanLoop3_fins _ x y rest]
  · simp only [py_ok_bind, h6]
    apply chanLoop3_fins
    intro i
    simp only [finCdl, h7, h8, h9, py_pure]
  · intro i
    simp only [finCdl, fins3_get, py_ok_bind, h1, Flt.fin_mul, h2, Flt.fin_add, h3]
    rcases h4 i with ⟨hz, hw⟩ | ⟨hz, hw⟩
    · rw [if_pos (by simpa [Flt.lt] using hz), ← hw, h5, py_pure]
    · rw [if_neg (by simpa [Flt.lt] using hz), hw, h5, py_pure]

theorem luma_size {y : Fin 3 → K} {M : K} (h : ∀ i, |y i| ≤ M) : |Spec.luma y| ≤ M := by
  have := luma_close (y := y) (w := fun _ => 0) (e := M) (by simpa using h)
  simpa [Spec.luma] using this

/-- One pixel of style `FwdNoClamp`. -/
theorem cdlFwdNoClamp_near (L : Arith K) {s o p : Fin 3 → K} {ψ : Fin 3 → K → K} {σ N O V Z D E C δ : K} (d1 d2 : Depth) (hs : ∀ i, |s i| ≤ N)
    (ho : ∀ i, |o i| ≤ O) (hL : ∀ i, Spec.OpenPower L (p i) (ψ i) Z δ) (hψ : ∀ i, Spec.OpenModulus (ψ i) Z D E C) (hN : N ≤ 2 ^ 120)
    (hD : (N * V + O) / 2 ^ 23 + (N + 1) * 2 ^ (-146 : ℤ) ≤ D) (hZ : N * V + O + D ≤ Z) (hZC : Z ≤ C) (h1C : 1 ≤ C) (hEC : E ≤ C)
    (hδ : δ ≤ C / 2 ^ 40) (hC : (|1 - σ| + |σ|) * C ≤ 2 ^ 95) {x : Fin 3 → K} (hx : ∀ i, Spec.IsSingle (x i))
    (hV : ∀ i, |x i / Spec.fullScale d1| ≤ V) :
    ∃ out : Fin 3 → K, (∀ rest, cdlFwdNoClampR ieee L (finCdl s o p σ) d1 d2 (Spec.fins x ++ rest) = .ok (Spec.fins out ++ rest)) ∧
      ∀ i, Spec.IsSingle (out i) ∧ |out i - Spec.openGrade (Spec.fullScale d1) (Spec.fullScale d2) s o ψ σ x i|
          ≤ Spec.fullScale d2 * ((|1 - σ| + |σ|) * (E + C / 2 ^ 20)) := by
  obtain ⟨g1, g2, g3⟩ := gain_bounds σ
  have h0C : 0 ≤ C := by linarith
  have hg0 : 0 ≤ |1 - σ| + |σ| := by linarith
  have hCg : C ≤ (|1 - σ| + |σ|) * C := le_mul_of_one_le_left h0C g1
  have p95 : (2 : K) ^ 95 ≤ 2 ^ 100 := pow_le_pow_right₀ one_le_two (by norm_num)
  have hC100 : C ≤ 2 ^ 100 := (hCg.trans hC).trans p95
  have hσC : |σ| * C ≤ 2 ^ 100 := ((mul_le_mul_of_nonneg_right g3 h0C).trans hC).trans p95
  have hN0 : 0 ≤ N := (abs_nonneg _).trans (hs 0)
  have hO0 : 0 ≤ O := (abs_nonneg _).trans (ho 0)
  have hV0 : 0 ≤ V := (abs_nonneg _).trans (hV 0)
  have hD0 : 0 ≤ D := le_trans (by positivity) hD
  have hE0 : 0 ≤ E := by
    have := (hψ 0).close 0 0 (by rw [abs_zero]; linarith [mul_nonneg hN0 hV0]) (by rw [abs_zero]; linarith [mul_nonneg hN0 hV0])
      (by rwa [sub_self, abs_zero])
    exact (abs_nonneg _).trans this
  choose u a z h1 h2 h3 ez using fun i => sop_near d1 (hx i) (hs i) (ho i) (hV i) hN
    (by refine le_trans (b := 2 ^ 100) (by linarith) (pow_le_pow_right₀ one_le_two (by norm_num)))
  -- before the curves
  have aZ : ∀ i, |x i / Spec.fullScale d1 * s i + o i| ≤ N * V + O := fun i => by
    refine (abs_add_le _ _).trans (add_le_add ?_ (ho i))
    rw [abs_mul, mul_comm]
    exact mul_le_mul (hs i) (hV i) (abs_nonneg _) hN0
  have az : ∀ i, |z i| ≤ Z := fun i => by
    have := abs_of_near (ez i) (aZ i)
    linarith
  -- the curves
  have hw : ∀ i, ∃ w, ((z i < 0 ∧ w = z i) ∨ (0 ≤ z i ∧ L.pow (.fin (z i)) (.fin (p i)) = .fin w)) ∧ |w - ψ i (z i)| ≤ C / 2 ^ 40 := by
    intro i
    rcases lt_or_ge (z i) 0 with h | h
    · refine ⟨z i, .inl ⟨h, rfl⟩, ?_⟩
      rw [(hL i).below _ h, sub_self, abs_zero]
      positivity
    · have hd : double.round (.fin (z i)) = .fin (z i) := by
        have e := double_fixed (h3 i)
        have hb : |z i| ≤ 2 ^ 300 := by
          have := open_big hC100
          have := az i
          generalize (2 : K) ^ 300 = c at *
          linarith
        have := double_fin hb
        rw [e] at this
        exact this
      obtain ⟨w, h1, h2⟩ := (hL i).near (z i) hd h ((le_abs_self _).trans (az i))
      exact ⟨w, .inr ⟨h, h1⟩, h2.trans hδ⟩
  choose w h4 ew using hw
  have aw : ∀ i, |w i| ≤ C * (1 + 1 / 2 ^ 40) := fun i => (abs_of_near (ew i) ((hψ i).size _ (az i))).trans_eq (by ring)
  have p125 : C * (1 + 1 / 2 ^ 40) ≤ 2 ^ 125 := by
    refine (mul_le_mul_of_nonneg_right hC100 (by positivity)).trans ?_
    norm_num
  choose y h5 sy ey y0 y1 using fun i => single_op (aw i) p125
  have t150 := tiny_zpow (K := K) (n := -150) (by norm_num)
  have t148 := tiny_zpow (K := K) (n := -148) (by norm_num)
  set Y := Spec.openGraded (Spec.fullScale d1) s o ψ x with hY
  have eY : ∀ i, |y i - Y i| ≤ E + C * (1 / 2 ^ 23) := by
    intro i
    have c1 : |ψ i (z i) - Y i| ≤ E := (hψ i).close _ _ (az i) ((aZ i).trans (by linarith)) ((ez i).trans hD)
    have c2 := ew i
    have c3 := ey i
    have c4 := abs_sub_le (y i) (w i) (Y i)
    have c5 := abs_sub_le (w i) (ψ i (z i)) (Y i)
    generalize (2 : K) ^ (-150 : ℤ) = μ at *
    norm_num at *
    linarith
  have aY : ∀ i, |Y i| ≤ C := fun i => (hψ i).size _ ((aZ i).trans (by linarith))
  have ay : ∀ i, |y i| ≤ 2 * C := by
    intro i
    have := abs_of_near (ey i) (aw i)
    generalize (2 : K) ^ (-150 : ℤ) = μ at *
    norm_num at *
    linarith
  -- saturation
  obtain ⟨l, h6, el⟩ := lumaR_open y h1C hC100 ay
  have al : |l| ≤ 3 * C := by
    have := abs_of_near el (luma_size ay)
    norm_num at *
    linarith
  choose q h7 eq using fun i => saturateR_open h1C hC100 hσC al (ay i)
  have eQ : ∀ i, |q i - (Spec.luma Y + σ * (Y i - Spec.luma Y))| ≤ (|1 - σ| + |σ|) * (E + C * (1 / 2 ^ 23) + 3 * (C * (1 / 2 ^ 47))) := by
    intro i
    have c1 := saturate_close (σ := σ) eY i
    have c2 : |(l + σ * (y i - l)) - (Spec.luma y + σ * (y i - Spec.luma y))| ≤ |1 - σ| * (C * (1 / 2 ^ 47)) := by
      have : (l + σ * (y i - l)) - (Spec.luma y + σ * (y i - Spec.luma y)) = (1 - σ) * (l - Spec.luma y) := by ring
      rw [this, abs_mul]
      exact mul_le_mul_of_nonneg_left el (abs_nonneg _)
    have c3 := abs_sub_le (q i) (l + σ * (y i - l)) (Spec.luma Y + σ * (Y i - Spec.luma Y))
    have c4 := abs_sub_le (l + σ * (y i - l)) (Spec.luma y + σ * (y i - Spec.luma y)) (Spec.luma Y + σ * (Y i - Spec.luma Y))
    have hc0 : 0 ≤ C * (1 / 2 ^ 47) := mul_nonneg h0C (by positivity)
    have c5 : (1 + |σ|) * (C * (1 / 2 ^ 47)) ≤ 2 * (|1 - σ| + |σ|) * (C * (1 / 2 ^ 47)) := mul_le_mul_of_nonneg_right (by linarith) hc0
    have c6 : |1 - σ| * (C * (1 / 2 ^ 47)) ≤ (|1 - σ| + |σ|) * (C * (1 / 2 ^ 47)) := mul_le_mul_of_nonneg_right g2 hc0
    have c7 := eq i
    calc |q i - (Spec.luma Y + σ * (Y i - Spec.luma Y))| ≤ _ := c3
      _ ≤ (1 + |σ|) * (C * (1 / 2 ^ 47)) + (|1 - σ| * (C * (1 / 2 ^ 47)) + (|1 - σ| + |σ|) * (E + C * (1 / 2 ^ 23))) :=
        add_le_add c7 (c4.trans (add_le_add c2 c1))
      _ ≤ 2 * (|1 - σ| + |σ|) * (C * (1 / 2 ^ 47)) + ((|1 - σ| + |σ|) * (C * (1 / 2 ^ 47)) + (|1 - σ| + |σ|) * (E + C * (1 / 2 ^ 23))) :=
        add_le_add c5 (add_le_add_left c6 _)
      _ = _ := by ring
  have aQ : ∀ i, |Spec.luma Y + σ * (Y i - Spec.luma Y)| ≤ (|1 - σ| + |σ|) * C := fun i => by
    have := saturate_close (σ := σ) (y := Y) (w := fun _ => 0) (e := C) (by simpa using aY) i
    simpa [Spec.luma] using this
  have aq : ∀ i, |q i| ≤ 3 * ((|1 - σ| + |σ|) * C) := fun i => by
    refine (abs_of_near (eQ i) (aQ i)).trans ?_
    have : E + C * (1 / 2 ^ 23) + 3 * (C * (1 / 2 ^ 47)) ≤ 2 * C := by
      norm_num
      linarith
    have := mul_le_mul_of_nonneg_left this hg0
    linarith
  have p125' : 3 * ((|1 - σ| + |σ|) * C) ≤ 2 ^ 125 := by
    have h : 3 * (2 : K) ^ 95 ≤ 2 ^ 125 := by norm_num
    generalize (2 : K) ^ 95 = c at *
    linarith
  choose r h8 sr er r0 r1 using fun i => single_op (aq i) p125'
  have ar : ∀ i, |r i| ≤ 4 * ((|1 - σ| + |σ|) * C) := fun i => by
    have := abs_of_near (er i) (aq i)
    generalize (2 : K) ^ (-150 : ℤ) = μ at *
    norm_num at *
    linarith
  choose out h9 so o0 o1 eo using fun i => back_pos d2 (sr i) (by
    refine (ar i).trans ?_
    have h : 4 * (2 : K) ^ 95 ≤ 2 ^ 100 := by norm_num
    generalize (2 : K) ^ 95 = c at *
    linarith)
  refine ⟨out, fun rest => cdlFwdNoClampR_pixel ieee L s o p σ d1 d2 x u a z w y q r out l rest h1 h2 h3 h4 h5 (h6 rest) h7 h8 h9, fun i =>
    ⟨so i, ?_⟩⟩
  have hT1 := one_le_fullScale (K := K) d2
  have c1 := eQ i
  have c2 := er i
  have c4 := eo i
  unfold Spec.openGrade
  simp only [← hY]
  generalize hG : (|1 - σ| + |σ|) * C = G at *
  have c0 : (|1 - σ| + |σ|) * (E + C * (1 / 2 ^ 23) + 3 * (C * (1 / 2 ^ 47))) = (|1 - σ| + |σ|) * E + G * (1 / 2 ^ 23) + 3 * (G * (1 / 2 ^ 47)) := by
    rw [← hG]; ring
  have c0' : (|1 - σ| + |σ|) * (E + C / 2 ^ 20) = (|1 - σ| + |σ|) * E + G / 2 ^ 20 := by
    rw [← hG]; ring
  rw [c0] at c1
  rw [c0']
  have hGE : 0 ≤ (|1 - σ| + |σ|) * E := mul_nonneg hg0 hE0
  generalize (|1 - σ| + |σ|) * E = H at *
  generalize Spec.luma Y + σ * (Y i - Spec.luma Y) = Q at *
  have ar' := ar i
  generalize (Spec.fullScale d2 : K) = T at *
  have hT0 : (0 : K) ≤ T := by linarith
  have c3 := abs_sub_le (r i) (q i) Q
  have c5 : |r i * T - Q * T| ≤ (3 * G * (1 / 2 ^ 24) + 2 ^ (-150 : ℤ) + (H + G * (1 / 2 ^ 23) + 3 * (G * (1 / 2 ^ 47)))) * T := by
    rw [← sub_mul, abs_mul, abs_of_nonneg hT0]
    exact mul_le_mul_of_nonneg_right (by linarith) hT0
  have c6 := abs_sub_le (out i) (r i * T) (Q * T)
  have c7 : |r i * T| * (9 / 8 * (1 / 2 ^ 24)) + 2 ^ (-148 : ℤ) ≤ (4 * G * (9 / 8 * (1 / 2 ^ 24)) + 1 / 2 ^ 100) * T := by
    have b1 : |r i * T| ≤ 4 * G * T := by
      rw [abs_mul, abs_of_nonneg hT0]
      exact mul_le_mul_of_nonneg_right ar' hT0
    have b2 : |r i * T| * (9 / 8 * (1 / 2 ^ 24)) ≤ 4 * G * T * (9 / 8 * (1 / 2 ^ 24)) := mul_le_mul_of_nonneg_right b1 (by positivity)
    have b3 : (2 : K) ^ (-148 : ℤ) ≤ 1 / 2 ^ 100 * T := t148.trans (le_mul_of_one_le_right (by positivity) hT1)
    linarith
  have c8 : 3 * G * (1 / 2 ^ 24) + 2 ^ (-150 : ℤ) + (H + G * (1 / 2 ^ 23) + 3 * (G * (1 / 2 ^ 47))) + (4 * G * (9 / 8 * (1 / 2 ^ 24)) + 1 / 2 ^ 100)
      ≤ H + G / 2 ^ 20 := by
    have hG1 : 1 ≤ G := h1C.trans hCg
    generalize (2 : K) ^ (-150 : ℤ) = μ at *
    norm_num at *
    linarith
  have c9 := mul_le_mul_of_nonneg_left c8 hT0
  refine c6.trans (le_trans (add_le_add (c4.trans c7) c5) (le_trans (le_of_eq ?_) c9))
  ring

end CLF
