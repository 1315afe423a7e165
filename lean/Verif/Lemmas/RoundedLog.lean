import Verif.Lemmas.RoundedTone

/-! # Lemmas: Log nodes in IEEE arithmetic -/

set_option linter.unusedSectionVars false

namespace CLF

open Spec (RelClose)

section
variable {K : Type} [Field K] [LinearOrder K] [IsStrictOrderedRing K] [FloorRing K]

/-- The row in effect for a channel. -/
def logRowR (R : Rounding K) (rows : List (LogParam K)) (i : Fin 3) : LogParam K :=
  (Spec.rowFor LogParam.channel rows i).getD ⟨literalR R (6 / 10), .fin 685, .fin 95, .fin 1, .fin 0, none⟩

theorem logParamsR_eq (R : Rounding K) (rows : List (LogParam K)) (h : Spec.GoodLetters LogParam.channel rows) :
    logParamsR R rows = .ok (List.ofFn fun i : Fin 3 => logRowR R rows i) := by
  unfold logParamsR
  refine (rows_fold LogParam.channel id _ rows h).trans ?_
  congr 2
  funext i
  unfold logRowR
  rw [Option.map_id_apply]

/-- A Log node of a known style on finite pixels. -/
theorem logProcessR_image (R : Rounding K) (L : Arith K) (rows : List (LogParam K)) (hr : Spec.GoodLetters LogParam.channel rows)
    (b : Base K) (d1 d2 st : AVal) (h : StyledNode b d1 d2 st) (f : LogParam K → Flt K → Py (Flt K)) (hf : logStyleR R L st = some f)
    (stride : ℕ) (hs : 3 ≤ stride) (pixels : List ((Fin 3 → K) × List (Flt K))) (hp : ∀ p ∈ pixels, p.2.length + 3 = stride)
    (F : Fin 3 → K → K)
    (hF : ∀ p ∈ pixels, ∀ i : Fin 3, ∃ y, f (logRowR R rows i)
        (R single (toUnitR R (.fin (p.1 i)) (some d1))) = .ok y ∧ R single (fromUnitR R (R single y) (some d2)) = .fin (F i (p.1 i))) :
    ∃ r, logProcessR R L rows b (Spec.image pixels) stride = .ok r ∧
      r.out = Spec.image (pixels.map fun p => (fun i => F i (p.1 i), p.2)) := by
  obtain ⟨e1, e2, e3⟩ := h.attrs
  unfold logProcessR
  simp only [e1, e2, e3, py_ok_bind, logParamsR_eq R rows hr, hf]
  refine ⟨_, chanNode_image stride hs _ pixels hp F ?_, rfl⟩
  intro p hp' i
  obtain ⟨y, h1, h2⟩ := hF p hp' i
  simp only [ofFn3_get, py_ok_bind, h1, h2, py_pure]

/-- A number near the true one, stored and taken to pixel values. -/
theorem store_abs (d : Depth) {y Y δ : K} (h : |y - Y| ≤ δ) (hδ : δ ≤ 1) (hY : |Y| ≤ 1000) :
    ∃ out, ieee single (fromUnitR ieee (ieee single (.fin y)) d) = .fin out ∧ Spec.IsSingle out ∧
      |out - Y * Spec.fullScale d| ≤ (2 * δ + (|Y| + 1) / 2 ^ 22) * Spec.fullScale d := by
  have hT := one_le_fullScale (K := K) d
  have hT0 := fullScale_pos (K := K) d
  have d0 := (abs_nonneg _).trans h
  have Y0 := abs_nonneg Y
  have y1 : |y| ≤ |Y| + δ := abs_of_near h le_rfl
  obtain ⟨z, k1, sz, ez, -, -⟩ := single_op (x := y) (M := |Y| + δ) y1 (by
    refine le_trans (b := 2 ^ 10) ?_ (pow_le_pow_right₀ one_le_two (by norm_num))
    norm_num
    linarith)
  have t150 := tiny_zpow (K := K) (n := -150) (by norm_num)
  have t148 := tiny_zpow (K := K) (n := -148) (by norm_num)
  have p148 := (two_zpow_pos (K := K) (-148)).le
  generalize (2 : K) ^ (-150 : ℤ) = η at *
  have zy := abs_sub_le z y Y
  have z1 : |z - Y| ≤ δ * (3 / 2) + (|Y| + 1 / 8) / 2 ^ 24 := by
    norm_num at ez t150 ⊢
    linarith
  have z2 : |z| ≤ |Y| + 2 := by
    have := abs_of_near z1 (le_refl |Y|)
    norm_num at this
    linarith
  obtain ⟨out, k2, so, -, -, eo⟩ := back_pos d sz (by
    refine le_trans (b := 2 ^ 10) (z2.trans ?_) (pow_le_pow_right₀ one_le_two (by norm_num))
    norm_num
    linarith)
  refine ⟨out, by rw [k1, k2], so, ?_⟩
  rw [abs_mul, abs_of_pos hT0] at eo
  have e1 : |out - Y * Spec.fullScale d| ≤ |out - z * Spec.fullScale d| + |z - Y| * Spec.fullScale d := by
    have := abs_sub_le out (z * Spec.fullScale d) (Y * Spec.fullScale d)
    rwa [← sub_mul, abs_mul, abs_of_pos hT0] at this
  have z3 : |z| ≤ |Y| + |z - Y| := abs_of_near le_rfl le_rfl
  generalize (2 : K) ^ (-148 : ℤ) = η' at *
  generalize (Spec.fullScale d : K) = T at *
  have e2 : η' ≤ T * (1 / 2 ^ 100) := t148.trans (le_mul_of_one_le_left (by positivity) hT)
  have e3 : |out - Y * T| ≤ (|z| * (9 / 8 * (1 / 2 ^ 24)) + 1 / 2 ^ 100 + |z - Y|) * T := by
    have : |z| * T * (9 / 8 * (1 / 2 ^ 24)) = |z| * (9 / 8 * (1 / 2 ^ 24)) * T := by ring
    rw [this] at eo
    have e4 : (|z| * (9 / 8 * (1 / 2 ^ 24)) + 1 / 2 ^ 100 + |z - Y|) * T
        = |z| * (9 / 8 * (1 / 2 ^ 24)) * T + T * (1 / 2 ^ 100) + |z - Y| * T := by ring
    rw [e4]
    linarith
  refine e3.trans (mul_le_mul_of_nonneg_right ?_ hT0.le)
  norm_num at z1 ⊢
  linarith

end

/-! ## Logarithms of numbers in the middle range -/

theorem log_two_half : 1 / 2 ≤ Real.log 2 := by
  have := Real.one_sub_inv_le_log_of_pos (x := 2) (by norm_num)
  norm_num at this ⊢
  exact this

/-- Logarithms of close numbers are close. -/
theorem logb_close {β a b ε : ℝ} (hβ : 2 ≤ β) (hb : 0 < b) (h : RelClose a b ε) (hε : ε ≤ 1 / 2) : |Real.logb β a - Real.logb β b| ≤ 4 * ε := by
  have l2 : 1 / 2 ≤ Real.log β := log_two_half.trans (Real.log_le_log (by norm_num) hβ)
  have ha := h.pos hb (by linarith)
  have ht : |a / b - 1| ≤ ε := by
    have e : a / b - 1 = (a - b) / b := by field_simp
    rw [e, abs_div, abs_of_pos hb, div_le_iff₀ hb]
    exact h
  have h1 := abs_log_le ht hε
  rw [Real.log_div ha.ne' hb.ne'] at h1
  unfold Real.logb
  rw [← sub_div, abs_div, abs_of_pos (by linarith : 0 < Real.log β), div_le_iff₀ (by linarith)]
  have e0 : 0 ≤ ε := (abs_nonneg _).trans ht
  have := mul_le_mul_of_nonneg_left l2 (by linarith : 0 ≤ 4 * ε)
  linarith

theorem abs_logb_le {β X : ℝ} {n : ℕ} (hβ : 2 ≤ β) (h0 : 2 ^ (-n : ℤ) ≤ X) (h1 : X ≤ 2 ^ n) : |Real.logb β X| ≤ n := by
  have X0 : 0 < X := lt_of_lt_of_le (two_zpow_pos _) h0
  have l2 := Real.log_le_log (by norm_num : (0 : ℝ) < 2) hβ
  have l0 := log_two_half
  have b1 := Real.log_le_log (two_zpow_pos _) h0
  have b2 := Real.log_le_log X0 h1
  rw [Real.log_zpow] at b1
  rw [Real.log_pow] at b2
  push_cast at b1
  have n0 : (0 : ℝ) ≤ n := Nat.cast_nonneg n
  have b3 := mul_le_mul_of_nonneg_left l2 n0
  unfold Real.logb
  rw [abs_div, abs_of_pos (by linarith : 0 < Real.log β), div_le_iff₀ (by linarith), abs_le]
  constructor <;> linarith

/-- The smallest normal `float32` number, as the program computes it. -/
theorem floatMinR_near : ∃ t : ℝ, floatMinR ieee = .fin t ∧ double.near t = t ∧ RelClose t Spec.floor32 (1 / 2 ^ 40) := by
  have big := thousand_le (K := ℝ)
  have eta : (2 : ℝ) ^ (-1075 : ℤ) ≤ 2 ^ (-200 : ℤ) := zpow_le_zpow_right₀ one_le_two (by norm_num)
  have rel : ∀ {x : ℝ}, 1 / 2 ^ 130 ≤ x → RelClose (double.near x) x (1 / 2 ^ 52) := by
    intro x hx
    have x0 : 0 < x := lt_of_lt_of_le (by positivity) hx
    have := double_rounder.err x
    rw [abs_of_pos x0] at this
    have h2 : (2 : ℝ) ^ (-200 : ℤ) ≤ x * (1 / 2 ^ 53) := by
      have := mul_le_mul_of_nonneg_right hx (by positivity : (0 : ℝ) ≤ 1 / 2 ^ 53)
      refine le_trans ?_ this
      norm_num
    generalize (2 : ℝ) ^ (-1075 : ℤ) = η at *
    generalize (2 : ℝ) ^ (-200 : ℤ) = η' at *
    unfold RelClose
    have e : 1 / 2 ^ 52 * x = x * (1 / 2 ^ 53) + x * (1 / 2 ^ 53) := by ring
    rw [e]
    linarith
  have fin : ∀ {x : ℝ}, 0 ≤ x → x ≤ 1000 → ieee double (.fin x) = .fin (double.near x) := fun h0 h => double_fin (by
    rw [abs_of_nonneg h0]; exact h.trans big)
  have a := rel (x := 11754943508222875 / 10 ^ 16) (by norm_num)
  have b := rel (x := 1 / 10 ^ 38) (by norm_num)
  have ha := a.pos (by norm_num) (by norm_num)
  have hb := b.pos (by norm_num) (by norm_num)
  have au := a.upper
  have bu := b.upper
  have al := a.lower
  have bl := b.lower
  have p1 : double.near (11754943508222875 / 10 ^ 16) * double.near (1 / 10 ^ 38 : ℝ) ≤ 1000 := by
    have h1 : double.near (11754943508222875 / 10 ^ 16 : ℝ) ≤ 10 := by norm_num at au ⊢; linarith
    have h2 : double.near (1 / 10 ^ 38 : ℝ) ≤ 10 := by norm_num at bu ⊢; linarith
    have := mul_le_mul h1 h2 hb.le (by norm_num)
    linarith
  have p2 : 1 / 2 ^ 130 ≤ double.near (11754943508222875 / 10 ^ 16) * double.near (1 / 10 ^ 38 : ℝ) := by
    have h1 : 1 ≤ double.near (11754943508222875 / 10 ^ 16 : ℝ) := by norm_num at al ⊢; linarith
    have h2 : 1 / 2 ^ 130 ≤ double.near (1 / 10 ^ 38 : ℝ) := by norm_num at bl ⊢; linarith
    have := mul_le_mul h1 h2 (by norm_num) (by linarith)
    linarith
  have c := rel p2
  have ab := (a.scale hb.le).trans (b.scale (by norm_num : (0 : ℝ) ≤ 11754943508222875 / 10 ^ 16) |> fun h => by
    rwa [mul_comm, mul_comm (1 / 10 ^ 38 : ℝ)] at h) (by norm_num)
  have h := c.trans ab (by norm_num)
  refine ⟨double.near (double.near (11754943508222875 / 10 ^ 16) * double.near (1 / 10 ^ 38)), ?_, Fmt.near_near _ _, ?_⟩
  · unfold floatMinR literalR
    rw [fin (by norm_num) (by norm_num), fin (by norm_num) (by norm_num), Flt.fin_mul, fin (mul_pos ha hb).le p1]
  · have e : Spec.floor32 = 11754943508222875 / 10 ^ 16 * (1 / 10 ^ 38) := by
      unfold Spec.floor32
      norm_num
    rw [e]
    exact h.mono (by norm_num) (by norm_num)

/-! ## Logarithms as computed -/

theorem log10_value {L : Arith ℝ} (hL : Spec.GoodLibrary L) {a : ℝ} (ha : 0 < a) (hd : double.near a = a) :
    ∃ y, L.log10 (.fin a) = .fin y ∧ |y - Real.logb 10 a| ≤ (|Real.logb 10 a| + 1) / 2 ^ 45 := by
  obtain ⟨y, h1, h2⟩ := hL.log10 a hd ha
  refine ⟨y, h1, h2.trans ?_⟩
  have := abs_nonneg (Real.logb 10 a)
  generalize |Real.logb 10 a| = q at *
  norm_num
  linarith

theorem log2_value {L : Arith ℝ} (hL : Spec.GoodLibrary L) {a : ℝ} (ha : 0 < a) (hd : double.near a = a) (hb : |Real.logb 2 a| ≤ 1000) :
    ∃ y, ieee double (L.log10 (.fin a) / L.log10 (.fin 2)) = .fin y ∧ |y - Real.logb 2 a| ≤ (|Real.logb 2 a| + 1) / 2 ^ 45 := by
  obtain ⟨l, h1, h2⟩ := hL.log10 a hd ha
  obtain ⟨k, h3, h4⟩ := hL.log10 2 (by simpa using double_nat (K := ℝ) 2 (by norm_num)) (by norm_num)
  have B0 : 0 < Real.logb 10 2 := Real.logb_pos (by norm_num) (by norm_num)
  have e : Real.logb 2 a = Real.logb 10 a / Real.logb 10 2 := by
    unfold Real.logb
    have h0 : Real.log 10 ≠ 0 := (Real.log_pos (by norm_num)).ne'
    have h0' : Real.log 2 ≠ 0 := (Real.log_pos (by norm_num)).ne'
    field_simp
  rw [abs_of_pos B0] at h4
  generalize Real.logb 10 2 = B at *
  have k0 : B / 2 ≤ k := by
    have := (abs_le.mp h4).1
    norm_num at this
    linarith
  have k1 : 0 < k := by linarith
  have q : |l / k - Real.logb 2 a| ≤ |Real.logb 2 a| * (1 / 2 ^ 48) := by
    rw [e]
    have e1 : l / k - Real.logb 10 a / B = ((l - Real.logb 10 a) * B - Real.logb 10 a * (k - B)) / (k * B) := by
      have := B0.ne'
      have := k1.ne'
      field_simp
      ring
    rw [e1, abs_div, abs_of_pos (mul_pos k1 B0), abs_div, abs_of_pos B0, div_le_iff₀ (mul_pos k1 B0)]
    have e2 : |Real.logb 10 a| / B * (1 / 2 ^ 48) * (k * B) = |Real.logb 10 a| * k * (1 / 2 ^ 48) := by
      have := B0.ne'
      field_simp
    rw [e2]
    refine (abs_sub _ _).trans ?_
    rw [abs_mul, abs_mul, abs_of_pos B0]
    have t1 := mul_le_mul_of_nonneg_right h2 B0.le
    have t2 := mul_le_mul_of_nonneg_left h4 (abs_nonneg (Real.logb 10 a))
    have t3 := mul_le_mul_of_nonneg_left k0 (abs_nonneg (Real.logb 10 a))
    have e3 : |Real.logb 10 a| * (1 / 2 ^ 50) * B = |Real.logb 10 a| * (B / 2) * (1 / 2 ^ 49) := by ring
    have e4 : |Real.logb 10 a| * (B * (1 / 2 ^ 50)) = |Real.logb 10 a| * (B / 2) * (1 / 2 ^ 49) := by ring
    rw [e3] at t1
    rw [e4] at t2
    norm_num at t1 t2 ⊢
    linarith
  clear e
  generalize Real.logb 2 a = Y at *
  have Y0 := abs_nonneg Y
  have q1 : |l / k| ≤ |Y| + |Y| * (1 / 2 ^ 48) := abs_of_near q le_rfl
  have err := double_rounder.err (l / k)
  have t := tiny_zpow (K := ℝ) (n := -1075) (by norm_num)
  refine ⟨double.near (l / k), ?_, ?_⟩
  · rw [h1, h3, Flt.fin_div k1.ne', double_fin]
    refine le_trans (b := 2 ^ 12) ?_ (pow_le_pow_right₀ one_le_two (by norm_num))
    norm_num at q1 ⊢
    linarith
  · have := abs_sub_le (double.near (l / k)) (l / k) Y
    generalize (2 : ℝ) ^ (-1075 : ℤ) = η at *
    norm_num at err t q q1 ⊢
    linarith

/-- The two bases, and how the program takes their logarithms and powers. -/
structure LogBase (L : Arith ℝ) (st anti : AVal) (β : ℝ) : Prop where
  two_le : 2 ≤ β
  le_ten : β ≤ 10
  isDouble : double.near β = β
  log : ∃ f, logStyleR ieee L st = some f ∧ ∀ p u a, Flt.pmax u (floatMinR ieee) = .fin a → 0 < a → double.near a = a → |Real.logb β a| ≤ 1000 →
    ∃ y, f p u = .ok (.fin y) ∧ |y - Real.logb β a| ≤ (|Real.logb β a| + 1) / 2 ^ 45
  anti : ∃ f, logStyleR ieee L anti = some f ∧ ∀ p u, f p u = .ok (L.pow (.fin β) u)

theorem logBase10 {L : Arith ℝ} (hL : Spec.GoodLibrary L) : LogBase L (.str "log10") (.str "antiLog10") 10 where
  two_le := by norm_num
  le_ten := le_rfl
  isDouble := by simpa using double_nat (K := ℝ) 10 (by norm_num)
  log := ⟨_, rfl, fun p u a h ha hd _ => by
    obtain ⟨y, h1, h2⟩ := log10_value hL ha hd
    exact ⟨y, by show Except.ok _ = _; rw [h, h1], h2⟩⟩
  anti := ⟨_, rfl, fun _ _ => rfl⟩

theorem logBase2 {L : Arith ℝ} (hL : Spec.GoodLibrary L) : LogBase L (.str "log2") (.str "antiLog2") 2 where
  two_le := le_rfl
  le_ten := by norm_num
  isDouble := by simpa using double_nat (K := ℝ) 2 (by norm_num)
  log := ⟨_, rfl, fun p u a h ha hd hb => by
    obtain ⟨y, h1, h2⟩ := log2_value hL ha hd hb
    exact ⟨y, by show Except.ok _ = _; rw [h, h1], h2⟩⟩
  anti := ⟨_, rfl, fun _ _ => rfl⟩

end CLF
