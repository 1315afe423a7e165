import Verif.Lemmas.RoundedLog
import Verif.Props.RoundedGamma

/-! # Property C138: logarithms and antilogarithms in IEEE arithmetic -/

set_option linter.unusedSectionVars false

namespace CLF

open Spec (RelClose)

/-- The style of a logarithm, and its base. -/
def Spec.LogOf (st : String) (β : ℝ) : Prop := (st = "log10" ∧ β = 10) ∨ (st = "log2" ∧ β = 2)

/-- The style of an antilogarithm, and its base. -/
def Spec.AntiLogOf (st : String) (β : ℝ) : Prop := (st = "antiLog10" ∧ β = 10) ∨ (st = "antiLog2" ∧ β = 2)

theorem Spec.LogOf.base {L : Arith ℝ} (hL : Spec.GoodLibrary L) {st : String} {β : ℝ} (h : Spec.LogOf st β) : ∃ anti, LogBase L (.str st) anti β := by
  rcases h with ⟨rfl, rfl⟩ | ⟨rfl, rfl⟩
  exacts [⟨_, logBase10 hL⟩, ⟨_, logBase2 hL⟩]

theorem Spec.AntiLogOf.base {L : Arith ℝ} (hL : Spec.GoodLibrary L) {st : String} {β : ℝ} (h : Spec.AntiLogOf st β) : ∃ fwd, LogBase L fwd (.str st) β := by
  rcases h with ⟨rfl, rfl⟩ | ⟨rfl, rfl⟩
  exacts [⟨_, logBase10 hL⟩, ⟨_, logBase2 hL⟩]

/-- A logarithm of something near `A`, stored. -/
theorem log_store {L : Arith ℝ} {st anti : AVal} {β : ℝ} (hβ : LogBase L st anti β) {f : LogParam ℝ → Flt ℝ → Py (Flt ℝ)}
    (hf : logStyleR ieee L st = some f) (p : LogParam ℝ) (u : Flt ℝ) {a A : ℝ} (h : Flt.pmax u (floatMinR ieee) = .fin a)
    (hd : double.near a = a) (hA : 0 < A) (ha : RelClose a A (1 / 2 ^ 23)) (hl : |Real.logb β A| ≤ 500) (d : Depth) :
    ∃ y out, f p u = .ok y ∧ ieee single (fromUnitR ieee (ieee single y) d) = .fin out ∧ Spec.IsSingle out ∧
      |out - Real.logb β A * Spec.fullScale d| ≤ (|Real.logb β A| + 1) / 2 ^ 19 * Spec.fullScale d := by
  obtain ⟨f', hf', hv⟩ := hβ.log
  obtain rfl : f' = f := Option.some.inj (hf'.symm.trans hf)
  have a0 := ha.pos hA (by norm_num)
  have c := logb_close hβ.two_le hA ha (by norm_num)
  have c1 : |Real.logb β a| ≤ |Real.logb β A| + 4 * (1 / 2 ^ 23) := abs_of_near c le_rfl
  obtain ⟨y, h1, h2⟩ := hv p u a h a0 hd (by norm_num at c1; linarith)
  have A0 := abs_nonneg (Real.logb β A)
  have tri := abs_sub_le y (Real.logb β a) (Real.logb β A)
  have hy : |y - Real.logb β A| ≤ (|Real.logb β A| + 1) / 2 ^ 20 * (3 / 4) := by
    norm_num at c c1 h2 ⊢
    linarith
  obtain ⟨out, k1, k2, k3⟩ := store_abs d hy (by norm_num; linarith) (by linarith)
  refine ⟨.fin y, out, h1, k1, k2, k3.trans (mul_le_mul_of_nonneg_right ?_ (fullScale_pos d).le)⟩
  norm_num
  linarith

theorem floor_bounds : (2 : ℝ) ^ (-127 : ℤ) ≤ Spec.floor32 ∧ Spec.floor32 ≤ 2 ^ (-120 : ℤ) := by
  unfold Spec.floor32
  constructor <;> norm_num

/-- Unit scale, logarithm, store, back. -/
theorem log_channel {L : Arith ℝ} {st anti : AVal} {β : ℝ} (hβ : LogBase L st anti β) {f : LogParam ℝ → Flt ℝ → Py (Flt ℝ)}
    (hf : logStyleR ieee L st = some f) (p : LogParam ℝ) (d1 d2 : Depth) {x : ℝ} (hx : Spec.IsSingle x)
    (h : x ≤ 0 ∨ Spec.Middle (x / Spec.fullScale d1)) :
    ∃ y out, f p (ieee single (toUnitR ieee (.fin x) d1)) = .ok y ∧ ieee single (fromUnitR ieee (ieee single y) d2) = .fin out ∧ Spec.IsSingle out ∧
      |out - Real.logb β (if x ≤ 0 then Spec.floor32 else x / Spec.fullScale d1) * Spec.fullScale d2|
        ≤ (|Real.logb β (if x ≤ 0 then Spec.floor32 else x / Spec.fullScale d1)| + 1) / 2 ^ 19 * Spec.fullScale d2 := by
  obtain ⟨m, hm, hm0⟩ := exists_tiny
  obtain ⟨t, t1, t2, t3⟩ := floatMinR_near
  have f0 : 0 < Spec.floor32 := lt_of_lt_of_le (two_zpow_pos _) floor_bounds.1
  have t0 := t3.pos f0 (by norm_num)
  obtain ⟨u, h1, su, hu, -, -, -, eu⟩ := unit_pos d1 hx
  rw [h1]
  by_cases h0 : x ≤ 0
  · rw [if_pos h0]
    refine log_store hβ hf p (.fin u) (a := t) ?_ t2 f0 (t3.mono f0.le (by norm_num)) ?_ d2
    · rw [t1, Flt.pmax_fin, max_eq_right ((hu h0).trans t0.le)]
    · have := abs_logb_le (n := 127) hβ.two_le (by simpa using floor_bounds.1) (floor_bounds.2.trans (by
        rw [← zpow_natCast]
        exact zpow_le_zpow_right₀ one_le_two (by norm_num)))
      norm_num at this
      linarith
  · rw [if_neg h0]
    have hM := h.resolve_left h0
    obtain ⟨b1, b2, X0⟩ := Spec.Middle.bounds hM hm
    have wu : RelClose u (x / Spec.fullScale d1) (1 / 2 ^ 23) := (relClose_of_round hm eu (by linarith) le_rfl).mono X0.le (by norm_num)
    have fm : Spec.floor32 ≤ m := floor_bounds.2.trans (by rw [hm]; exact zpow_le_zpow_right₀ one_le_two (by norm_num))
    have tu : t ≤ u := by
      have e1 := wu.lower
      have e2 := t3.upper
      norm_num at e1 e2
      linarith
    refine log_store hβ hf p (.fin u) (a := u) ?_ su.double X0 wu ?_ d2
    · rw [t1, Flt.pmax_fin, max_eq_left tu]
    · have := abs_logb_le (n := 100) hβ.two_le (by simpa using hM.1) (hM.2.trans (pow_le_pow_right₀ one_le_two (by norm_num)))
      norm_num at this
      linarith

/-- C138: `log10` and `log2` nodes in IEEE arithmetic: the logarithm, up to an error that grows with its size. Colours without light count as the smallest
normal `float32` number. Other channels stay. -/
theorem C138_log (L : Arith ℝ) (hL : Spec.GoodLibrary L) (st : String) (β : ℝ) (hst : Spec.LogOf st β) (rows : List (LogParam ℝ))
    (hr : Spec.GoodLetters LogParam.channel rows) (b : Base ℝ) (d1 d2 : AVal) (h : StyledNode b d1 d2 (.str st)) (stride : ℕ) (hs : 3 ≤ stride)
    (pixels : List ((Fin 3 → ℝ) × List (Flt ℝ))) (hp : ∀ p ∈ pixels, p.2.length + 3 = stride)
    (hx : ∀ p ∈ pixels, ∀ i, Spec.IsSingle (p.1 i) ∧ (p.1 i ≤ 0 ∨ Spec.Middle (p.1 i / Spec.fullScale (some d1)))) :
    ∃ (r : Res ℝ) (F : Fin 3 → ℝ → ℝ), logProcessR ieee L rows b (Spec.image pixels) stride = .ok r ∧
      r.out = Spec.image (pixels.map fun p => (fun i => F i (p.1 i), p.2)) ∧
      ∀ p ∈ pixels, ∀ i, Spec.IsSingle (F i (p.1 i)) ∧
        |F i (p.1 i) - Real.logb β (if p.1 i ≤ 0 then Spec.floor32 else p.1 i / Spec.fullScale (some d1)) * Spec.fullScale (some d2)|
          ≤ (|Real.logb β (if p.1 i ≤ 0 then Spec.floor32 else p.1 i / Spec.fullScale (some d1))| + 1) / 2 ^ 19 * Spec.fullScale (some d2) := by
  obtain ⟨anti, hβ⟩ := hst.base hL
  obtain ⟨f, hf, -⟩ := hβ.log
  have key : ∀ (i : Fin 3) (x : ℝ), ∃ out, Spec.IsSingle x ∧ (x ≤ 0 ∨ Spec.Middle (x / Spec.fullScale (some d1))) →
      (∃ y, f (logRowR ieee rows i) (ieee single (toUnitR ieee (.fin x) (some d1))) = .ok y ∧
        ieee single (fromUnitR ieee (ieee single y) (some d2)) = .fin out) ∧ Spec.IsSingle out ∧
      |out - Real.logb β (if x ≤ 0 then Spec.floor32 else x / Spec.fullScale (some d1)) * Spec.fullScale (some d2)|
        ≤ (|Real.logb β (if x ≤ 0 then Spec.floor32 else x / Spec.fullScale (some d1))| + 1) / 2 ^ 19 * Spec.fullScale (some d2) := by
    intro i x
    by_cases hh : Spec.IsSingle x ∧ (x ≤ 0 ∨ Spec.Middle (x / Spec.fullScale (some d1)))
    · obtain ⟨y, out, k1, k2, k3, k4⟩ := log_channel hβ hf (logRowR ieee rows i) (some d1) (some d2) hh.1 hh.2
      exact ⟨out, fun _ => ⟨⟨y, k1, k2⟩, k3, k4⟩⟩
    · exact ⟨0, fun h => absurd h hh⟩
  choose F hF using key
  obtain ⟨r, h1, h2⟩ := logProcessR_image ieee L rows hr b d1 d2 _ h f hf stride hs pixels hp F fun p hp' i => (hF i (p.1 i) (hx p hp' i)).1
  exact ⟨r, F, h1, h2, fun p hp' i => (hF i (p.1 i) (hx p hp' i)).2⟩

/-- Unit scale, antilogarithm, store, back. -/
theorem antilog_channel {L : Arith ℝ} (hL : Spec.GoodLibrary L) {st anti : AVal} {β : ℝ} (hβ : LogBase L st anti β) {m : ℝ} (hm : m = 2 ^ (-110 : ℤ))
    (d1 d2 : Depth) {x : ℝ} (hx : Spec.IsSingle x)
    (hP : 2 * m ≤ β ^ (x / Spec.fullScale d1) ∧ β ^ (x / Spec.fullScale d1) ≤ 2 ^ 99) :
    ∃ y out, L.pow (.fin β) (ieee single (toUnitR ieee (.fin x) d1)) = .fin y ∧
      ieee single (fromUnitR ieee (ieee single (.fin y)) d2) = .fin out ∧ Spec.IsSingle out ∧
      RelClose out (β ^ (x / Spec.fullScale d1) * Spec.fullScale d2) ((|x / Spec.fullScale d1| + 1) / 2 ^ 19) := by
  obtain ⟨u, h1, su, -, -, -, -, eu⟩ := unit_pos d1 hx
  generalize x / Spec.fullScale d1 = X at *
  have hp : 0 < m := hm ▸ two_zpow_pos _
  have β0 : 0 < β := by linarith [hβ.two_le]
  have P0 : 0 < β ^ X := Real.rpow_pos_of_pos β0 X
  have lβ : |Real.log β| ≤ 4 := by
    have l2 : Real.log 2 ≤ 1 := by have := Real.log_le_sub_one_of_pos (x := 2) (by norm_num); linarith
    have l1 := Real.log_le_log β0 (hβ.le_ten.trans (by norm_num : (10 : ℝ) ≤ 2 ^ 4))
    rw [Real.log_pow] at l1
    rw [abs_of_nonneg (Real.log_nonneg (by linarith [hβ.two_le]))]
    norm_num at l1
    linarith
  have Xb : |X| ≤ 110 := by
    have e : Real.logb β (β ^ X) = X := Real.logb_rpow β0 (by linarith [hβ.two_le])
    have := abs_logb_le (n := 110) (X := β ^ X) hβ.two_le (by
      have : (2 : ℝ) ^ (-(110 : ℕ) : ℤ) = m := by rw [hm]; rfl
      rw [this]
      linarith [hP.1]) (hP.2.trans (pow_le_pow_right₀ one_le_two (by norm_num)))
    rw [e] at this
    norm_num at this
    exact this
  have Xn := abs_nonneg X
  have du : |u - X| ≤ (|X| + 1) / 2 ^ 23 := by
    have t := tiny_zpow (K := ℝ) (n := -148) (by norm_num)
    generalize (2 : ℝ) ^ (-148 : ℤ) = η at *
    norm_num at eu t ⊢
    linarith
  obtain ⟨κ, hκ⟩ : ∃ κ, κ = (|X| + 1) / 2 ^ 20 := ⟨_, rfl⟩
  have κs : κ ≤ 1 / 2 ^ 12 := by
    rw [hκ]
    norm_num
    linarith
  have κ0 : 0 ≤ κ := hκ ▸ by positivity
  have wp : RelClose (β ^ u) (β ^ X) κ := by
    have := within_exponent β0 (e := X) (e' := u) (δ := κ / 2) (by
      rw [abs_mul]
      refine (mul_le_mul du lβ (abs_nonneg _) (by positivity)).trans (le_of_eq ?_)
      rw [hκ]
      ring) (by norm_num at κs; linarith)
    rwa [mul_div_cancel₀ _ (two_ne_zero' ℝ)] at this
  have hl := wp.lower
  have hu := wp.upper
  have e1 : (1 - κ) * β ^ X = β ^ X - κ * β ^ X := by ring
  have e2 : (1 + κ) * β ^ X = β ^ X + κ * β ^ X := by ring
  have e3 : κ * β ^ X ≤ 1 / 2 ^ 12 * β ^ X := mul_le_mul_of_nonneg_right κs P0.le
  rw [e1] at hl
  rw [e2] at hu
  have up : β ^ u ≤ 2 ^ 100 * (5 / 8) := by
    have h2 : (2 : ℝ) ^ 100 = 2 * 2 ^ 99 := by norm_num
    rw [h2]
    obtain ⟨h3, h4⟩ := hP
    generalize (2 : ℝ) ^ 99 = M at *
    norm_num at e3
    linarith
  have lo : m * (3 / 2) ≤ β ^ u := by
    obtain ⟨h3, h4⟩ := hP
    norm_num at e3
    linarith
  have U0 : 0 < β ^ u := by linarith
  obtain ⟨y, h2, ey⟩ := hL.pow β u hβ.isDouble su.double β0 (up.trans (by
    refine le_trans (b := 2 ^ 100) ?_ (pow_le_pow_right₀ one_le_two (by norm_num))
    norm_num))
  have wy : RelClose y (β ^ u) (1 / 2 ^ 37) := by
    refine (relClose_of_round hm (c := 1 / 2 ^ 50) (n := -1000) ?_ (by linarith) (by norm_num)).mono U0.le (by norm_num)
    rwa [abs_of_pos U0]
  have y1 : m * (5 / 4) ≤ y := by
    have h := wy.lower
    norm_num at h
    linarith
  have y2 : y ≤ 2 ^ 100 * (3 / 4) := by
    have h := wy.upper
    generalize (2 : ℝ) ^ 100 = M at *
    norm_num at h
    linarith
  obtain ⟨out, k1, so, wo⟩ := store_channel hm d2 y1 y2
  refine ⟨y, out, by rw [h1, h2], k1, so, ?_⟩
  have hT0 := fullScale_pos (K := ℝ) d2
  have := wo.trans ((wy.trans wp (by norm_num)).scale hT0.le) (by norm_num)
  refine this.mono (mul_pos P0 hT0).le ?_
  have e4 : (|X| + 1) / 2 ^ 19 = 2 * κ := by rw [hκ]; ring
  have e5 : 1 / 2 ^ 20 ≤ κ := by rw [hκ]; norm_num; linarith
  rw [e4]
  norm_num at κs e5 ⊢
  linarith

/-- A node taking antilogarithms, on the widest range dealt with. -/
theorem antilog_image {L : Arith ℝ} (hL : Spec.GoodLibrary L) (st : String) (β : ℝ) (hst : Spec.AntiLogOf st β) (rows : List (LogParam ℝ))
    (hr : Spec.GoodLetters LogParam.channel rows) (b : Base ℝ) (d1 d2 : AVal) (h : StyledNode b d1 d2 (.str st)) {m : ℝ} (hm : m = 2 ^ (-110 : ℤ))
    (stride : ℕ) (hs : 3 ≤ stride) (pixels : List ((Fin 3 → ℝ) × List (Flt ℝ))) (hp : ∀ p ∈ pixels, p.2.length + 3 = stride)
    (hx : ∀ p ∈ pixels, ∀ i, Spec.IsSingle (p.1 i) ∧ 2 * m ≤ β ^ (p.1 i / Spec.fullScale (some d1)) ∧ β ^ (p.1 i / Spec.fullScale (some d1)) ≤ 2 ^ 99) :
    ∃ (r : Res ℝ) (F : Fin 3 → ℝ → ℝ), logProcessR ieee L rows b (Spec.image pixels) stride = .ok r ∧
      r.out = Spec.image (pixels.map fun p => (fun i => F i (p.1 i), p.2)) ∧
      ∀ p ∈ pixels, ∀ i, Spec.IsSingle (F i (p.1 i)) ∧
        RelClose (F i (p.1 i)) (β ^ (p.1 i / Spec.fullScale (some d1)) * Spec.fullScale (some d2)) ((|p.1 i / Spec.fullScale (some d1)| + 1) / 2 ^ 19) := by
  obtain ⟨fwd, hβ⟩ := hst.base hL
  obtain ⟨f, hf, hv⟩ := hβ.anti
  have key : ∀ (x : ℝ), ∃ out, Spec.IsSingle x ∧ 2 * m ≤ β ^ (x / Spec.fullScale (some d1)) ∧ β ^ (x / Spec.fullScale (some d1)) ≤ 2 ^ 99 →
      (∃ y, L.pow (.fin β) (ieee single (toUnitR ieee (.fin x) (some d1))) = .fin y ∧
        ieee single (fromUnitR ieee (ieee single (.fin y)) (some d2)) = .fin out) ∧ Spec.IsSingle out ∧
      RelClose out (β ^ (x / Spec.fullScale (some d1)) * Spec.fullScale (some d2)) ((|x / Spec.fullScale (some d1)| + 1) / 2 ^ 19) := by
    intro x
    by_cases hh : Spec.IsSingle x ∧ 2 * m ≤ β ^ (x / Spec.fullScale (some d1)) ∧ β ^ (x / Spec.fullScale (some d1)) ≤ 2 ^ 99
    · obtain ⟨y, out, k1, k2, k3, k4⟩ := antilog_channel hL hβ hm (some d1) (some d2) hh.1 hh.2
      exact ⟨out, fun _ => ⟨⟨y, k1, k2⟩, k3, k4⟩⟩
    · exact ⟨0, fun h => absurd h hh⟩
  choose F hF using key
  obtain ⟨r, h1, h2⟩ := logProcessR_image ieee L rows hr b d1 d2 _ h f hf stride hs pixels hp (fun _ => F) fun p hp' i => by
    obtain ⟨⟨y, k1, k2⟩, -⟩ := hF (p.1 i) (hx p hp' i)
    exact ⟨.fin y, by rw [hv, k1], k2⟩
  exact ⟨r, fun _ => F, h1, h2, fun p hp' i => (hF (p.1 i) (hx p hp' i)).2⟩

/-- C138: `antiLog10` and `antiLog2` nodes in IEEE arithmetic: the power of the base, up to a small fraction of it. -/
theorem C138_antilog (L : Arith ℝ) (hL : Spec.GoodLibrary L) (st : String) (β : ℝ) (hst : Spec.AntiLogOf st β) (rows : List (LogParam ℝ))
    (hr : Spec.GoodLetters LogParam.channel rows) (b : Base ℝ) (d1 d2 : AVal) (h : StyledNode b d1 d2 (.str st)) (stride : ℕ) (hs : 3 ≤ stride)
    (pixels : List ((Fin 3 → ℝ) × List (Flt ℝ))) (hp : ∀ p ∈ pixels, p.2.length + 3 = stride)
    (hx : ∀ p ∈ pixels, ∀ i, Spec.IsSingle (p.1 i) ∧ Spec.Middle (β ^ (p.1 i / Spec.fullScale (some d1)))) :
    ∃ (r : Res ℝ) (F : Fin 3 → ℝ → ℝ), logProcessR ieee L rows b (Spec.image pixels) stride = .ok r ∧
      r.out = Spec.image (pixels.map fun p => (fun i => F i (p.1 i), p.2)) ∧
      ∀ p ∈ pixels, ∀ i, Spec.IsSingle (F i (p.1 i)) ∧
        RelClose (F i (p.1 i)) (β ^ (p.1 i / Spec.fullScale (some d1)) * Spec.fullScale (some d2)) ((|p.1 i / Spec.fullScale (some d1)| + 1) / 2 ^ 19) := by
  obtain ⟨m, hm, hm0⟩ := exists_tiny
  refine antilog_image hL st β hst rows hr b d1 d2 h hm stride hs pixels hp fun p hp' i => ⟨(hx p hp' i).1, ?_⟩
  have c := (hx p hp' i).2.bounds hm
  exact ⟨by linarith [c.1], c.2.1.trans (pow_le_pow_right₀ one_le_two (by norm_num))⟩

/-- C138: the logarithm, then the antilogarithm: every colour with light comes back up to a small fraction of it, whatever the depths. -/
theorem C138_roundtrip (L : Arith ℝ) (hL : Spec.GoodLibrary L) (st st' : String) (β : ℝ) (hst : Spec.LogOf st β) (hst' : Spec.AntiLogOf st' β)
    (rows rows' : List (LogParam ℝ)) (hr : Spec.GoodLetters LogParam.channel rows) (hr' : Spec.GoodLetters LogParam.channel rows') (bf br : Base ℝ) (d1 d2 : AVal)
    (hf : StyledNode bf d1 d2 (.str st)) (hb : StyledNode br d2 d1 (.str st')) (stride : ℕ) (hs : 3 ≤ stride)
    (pixels : List ((Fin 3 → ℝ) × List (Flt ℝ))) (hp : ∀ p ∈ pixels, p.2.length + 3 = stride)
    (hx : ∀ p ∈ pixels, ∀ i, Spec.IsSingle (p.1 i) ∧ Spec.Middle (p.1 i / Spec.fullScale (some d1))) :
    ∃ (r r' : Res ℝ) (G : Fin 3 → ℝ → ℝ), logProcessR ieee L rows bf (Spec.image pixels) stride = .ok r ∧
      logProcessR ieee L rows' br r.out stride = .ok r' ∧
      r'.out = Spec.image (pixels.map fun p => (fun i => G i (p.1 i), p.2)) ∧
      ∀ p ∈ pixels, ∀ i, Spec.IsSingle (G i (p.1 i)) ∧
        RelClose (G i (p.1 i)) (p.1 i) ((|Real.logb β (p.1 i / Spec.fullScale (some d1))| + 1) / 2 ^ 15) := by
  obtain ⟨m, hm, hm0⟩ := exists_tiny
  obtain ⟨anti, hβ⟩ := hst.base hL
  have β2 := hβ.two_le
  have β0 : 0 < β := by linarith
  have lβ : |Real.log β| ≤ 4 := by
    have l2 : Real.log 2 ≤ 1 := by have := Real.log_le_sub_one_of_pos (x := 2) (by norm_num); linarith
    have l1 := Real.log_le_log β0 (hβ.le_ten.trans (by norm_num : (10 : ℝ) ≤ 2 ^ 4))
    rw [Real.log_pow] at l1
    rw [abs_of_nonneg (Real.log_nonneg (by linarith))]
    norm_num at l1
    linarith
  obtain ⟨r, F, h1, h2, h3⟩ := C138_log L hL st β hst rows hr bf d1 d2 hf stride hs pixels hp fun p hp' i => ⟨(hx p hp' i).1, .inr (hx p hp' i).2⟩
  have hT0 := fullScale_pos (K := ℝ) (some d2)
  have hS0 := fullScale_pos (K := ℝ) (some d1)
  have mid : ∀ p ∈ pixels, ∀ i, |F i (p.1 i) / Spec.fullScale (some d2) - Real.logb β (p.1 i / Spec.fullScale (some d1))|
        ≤ (|Real.logb β (p.1 i / Spec.fullScale (some d1))| + 1) / 2 ^ 19 ∧
      RelClose (β ^ (F i (p.1 i) / Spec.fullScale (some d2))) (p.1 i / Spec.fullScale (some d1)) ((|Real.logb β (p.1 i / Spec.fullScale (some d1))| + 1) / 2 ^ 16) ∧
      |Real.logb β (p.1 i / Spec.fullScale (some d1))| ≤ 100 ∧ 0 < p.1 i := by
    intro p hp' i
    have hM := (hx p hp' i).2
    have X0 := (hM.bounds hm).2.2
    have x0 : 0 < p.1 i := by rwa [div_pos_iff_of_pos_right hS0] at X0
    have e := (h3 p hp' i).2
    rw [if_neg (not_le.mpr x0)] at e
    have lb : |Real.logb β (p.1 i / Spec.fullScale (some d1))| ≤ 100 := by
      have := abs_logb_le (n := 100) β2 (by simpa using hM.1) (hM.2.trans (pow_le_pow_right₀ one_le_two (by norm_num)))
      norm_num at this
      exact this
    have e1 : |F i (p.1 i) / Spec.fullScale (some d2) - Real.logb β (p.1 i / Spec.fullScale (some d1))|
        ≤ (|Real.logb β (p.1 i / Spec.fullScale (some d1))| + 1) / 2 ^ 19 := by
      rw [← mul_le_mul_iff_left₀ hT0]
      refine le_trans (le_of_eq ?_) e
      nth_rw 2 [← abs_of_pos hT0]
      rw [← abs_mul, sub_mul, div_mul_cancel₀ _ hT0.ne']
    refine ⟨e1, ?_, lb, x0⟩
    have ln := abs_nonneg (Real.logb β (p.1 i / Spec.fullScale (some d1)))
    have := within_exponent β0 (e := Real.logb β (p.1 i / Spec.fullScale (some d1))) (e' := F i (p.1 i) / Spec.fullScale (some d2))
      (δ := (|Real.logb β (p.1 i / Spec.fullScale (some d1))| + 1) / 2 ^ 17) (by
        rw [abs_mul]
        refine (mul_le_mul e1 lβ (abs_nonneg _) (by positivity)).trans (le_of_eq ?_)
        ring) (by norm_num; linarith)
    rw [Real.rpow_logb β0 (by linarith) X0] at this
    refine this.mono X0.le (le_of_eq ?_)
    ring
  obtain ⟨r', F', h4, h5, h6⟩ := antilog_image hL st' β hst' rows' hr' br d2 d1 hb hm stride hs (pixels.map fun p => (fun i => F i (p.1 i), p.2)) (by
      intro q hq
      obtain ⟨p, hp', rfl⟩ := List.mem_map.mp hq
      exact hp p hp') (by
      intro q hq i
      obtain ⟨p, hp', rfl⟩ := List.mem_map.mp hq
      obtain ⟨n1, n2, n3, n4⟩ := mid p hp' i
      obtain ⟨b1, b2, X0⟩ := (hx p hp' i).2.bounds hm
      have l := n2.lower
      have u := n2.upper
      refine ⟨(h3 p hp' i).1, ?_, ?_⟩
      · have := mul_le_mul_of_nonneg_right (by norm_num; linarith : (1 / 2 : ℝ) ≤ 1 - (|Real.logb β (p.1 i / Spec.fullScale (some d1))| + 1) / 2 ^ 16) X0.le
        simp only
        linarith
      · have := mul_le_mul_of_nonneg_right (by norm_num; linarith : 1 + (|Real.logb β (p.1 i / Spec.fullScale (some d1))| + 1) / 2 ^ 16 ≤ (2 : ℝ)) X0.le
        simp only
        have hb : 2 * (2 : ℝ) ^ 90 ≤ 2 ^ 99 := by norm_num
        linarith)
  refine ⟨r, r', fun i x => F' i (F i x), h1, by rw [h2]; exact h4, by rw [h5, List.map_map]; rfl, fun p hp' i => ?_⟩
  obtain ⟨a1, a2⟩ := h6 _ (List.mem_map.mpr ⟨p, hp', rfl⟩) i
  obtain ⟨n1, n2, n3, n4⟩ := mid p hp' i
  refine ⟨a1, ?_⟩
  have := a2.trans (n2.scale hS0.le) (by positivity)
  rw [div_mul_cancel₀ _ hS0.ne'] at this
  refine this.mono n4.le ?_
  simp only
  have fb : |F i (p.1 i) / Spec.fullScale (some d2)| ≤ |Real.logb β (p.1 i / Spec.fullScale (some d1))| + (|Real.logb β (p.1 i / Spec.fullScale (some d1))| + 1) / 2 ^ 19 :=
    abs_of_near n1 le_rfl
  have ln := abs_nonneg (Real.logb β (p.1 i / Spec.fullScale (some d1)))
  have fn := abs_nonneg (F i (p.1 i) / Spec.fullScale (some d2))
  generalize |F i (p.1 i) / Spec.fullScale (some d2)| = φ at *
  generalize |Real.logb β (p.1 i / Spec.fullScale (some d1))| = ℓ at *
  have e0 : (φ + 1) / 2 ^ 19 * (1 + (ℓ + 1) / 2 ^ 16) ≤ (φ + 1) / 2 ^ 19 * 2 :=
    mul_le_mul_of_nonneg_left (by norm_num; linarith) (by positivity)
  norm_num at e0 fb ⊢
  linarith

/-! ## Examples -/

/-- The base two logarithm of ten bit pixels with alpha, and back. -/
example : ∃ (r r' : Res ℝ) (G : Fin 3 → ℝ → ℝ),
    logProcessR ieee realArith [] { attrs := [("inBitDepth", .str "10i"), ("outBitDepth", .str "32f"), ("style", .str "log2")] }
      (Spec.image [(fun i : Fin 3 => 100 * (i + 1), [.fin 7])]) 4 = .ok r ∧
    logProcessR ieee realArith [] { attrs := [("inBitDepth", .str "32f"), ("outBitDepth", .str "10i"), ("style", .str "antiLog2")] }
      r.out 4 = .ok r' ∧
    r'.out = Spec.image [(fun i => G i (100 * (i + 1)), [.fin 7])] ∧ |G 0 100 - 100| ≤ 1 / 10 ∧ |G 2 300 - 300| ≤ 1 / 10 := by
  have hS : Spec.fullScale (K := ℝ) (some (.str "10i")) = 1023 := by
    have := (fullScale_bits (K := ℝ) (n := 10) (d := .str "10i") (by decide)).1
    rw [this]
    norm_num
  obtain ⟨r, r', G, h1, h3, h4, h5⟩ := C138_roundtrip realArith realArith_real.good "log2" "antiLog2" 2 (.inr ⟨rfl, rfl⟩) (.inr ⟨rfl, rfl⟩) [] []
    (by simp [Spec.GoodLetters]) (by simp [Spec.GoodLetters])
    { attrs := [("inBitDepth", .str "10i"), ("outBitDepth", .str "32f"), ("style", .str "log2")] }
    { attrs := [("inBitDepth", .str "32f"), ("outBitDepth", .str "10i"), ("style", .str "antiLog2")] } (.str "10i") (.str "32f")
    ⟨rfl, rfl, rfl⟩ ⟨rfl, rfl, rfl⟩ 4 (by norm_num) [(fun i : Fin 3 => 100 * (i + 1), [.fin 7])] (by simp) (by
      intro p hp i
      rw [List.mem_singleton] at hp
      subst hp
      refine ⟨?_, ?_⟩
      · have : ((100 * (i.1 + 1) : ℕ) : ℝ) = 100 * ((i : ℕ) + 1) := by push_cast; rfl
        simp only
        rw [← this]
        exact isSingle_nat (by omega)
      · unfold Spec.Middle
        simp only [hS]
        fin_cases i <;> norm_num)
  have e := h5 _ (List.mem_singleton.mpr rfl)
  have lb : ∀ X : ℝ, 1 / 2 ^ 5 ≤ X → X ≤ 1 → |Real.logb 2 X| ≤ 5 := by
    intro X a c
    have := abs_logb_le (n := 5) (β := 2) le_rfl (by norm_num at a ⊢; exact a) (by norm_num; linarith : X ≤ 2 ^ 5)
    norm_num at this
    exact this
  refine ⟨r, r', G, h1, h3, h4, ?_, ?_⟩
  · have := (e 0).2
    unfold RelClose at this
    have l := lb (100 / 1023) (by norm_num) (by norm_num)
    simp only [hS] at this
    norm_num at this ⊢
    linarith
  · have := (e 2).2
    unfold RelClose at this
    have l := lb (300 / 1023) (by norm_num) (by norm_num)
    simp only [hS] at this
    norm_num at this ⊢
    linarith

end CLF
