import Verif.Props.ImageDepth

set_option linter.unusedSectionVars false

/-!
# Images converted to another bit depth
-/

namespace CLF

variable {K : Type} [Field K] [LinearOrder K] [IsStrictOrderedRing K] [FloorRing K]

/-! ## Steps of `float32` rounding -/

theorem Fmt.round_rel (f : Fmt) (hb2 : 2 ≤ f.ebits) (x : K) (hx : 0 < x)
    (h1 : 1 - f.bias ≤ Int.log 2 x) (h2 : Int.log 2 x < f.bias) :
    ∃ x', f.round (.fin x) = .fin x' ∧ |x' - x| ≤ x / 2 ^ (f.mant + 1) := by
  have e1 : (2 : K) ^ Int.log 2 x ≤ x := by exact_mod_cast Int.zpow_log_le_self (b := 2) (by norm_num) hx
  have e2 : x < (2 : K) ^ (Int.log 2 x + 1) := by exact_mod_cast Int.lt_zpow_succ_log_self (b := 2) (by norm_num) x
  obtain ⟨x', h, _, hn⟩ := Fmt.round_near f hb2 _ h1 h2 x e1 e2
  refine ⟨x', h, le_trans hn ?_⟩
  rw [zpow_sub₀ two_ne_zero, zpow_natCast, pow_succ, div_div]
  have hp : (0 : K) < 2 ^ f.mant * 2 := by positivity
  rw [div_le_div_iff_of_pos_right hp]
  exact e1

theorem log_bounds (x : K) (k : ℕ) (h1 : 1 / 2 ^ k ≤ x) (h2 : x < 2 ^ k) :
    -(k : ℤ) ≤ Int.log 2 x ∧ Int.log 2 x < k := by
  have hx : 0 < x := lt_of_lt_of_le (by positivity) h1
  constructor
  · refine (Int.zpow_le_iff_le_log (b := 2) (by norm_num) hx).mp ?_
    rw [zpow_neg, zpow_natCast]
    push_cast
    rw [← one_div]
    exact h1
  · refine (Int.lt_zpow_iff_log_lt (b := 2) (by norm_num) hx).mp ?_
    rw [zpow_natCast]
    push_cast
    exact h2

/-- A stored result is near the exact one. -/
theorem rounds_near {A : Arith K} (hA : Spec.Rounds A) (x : K) (h1 : 1 / 2 ^ 30 ≤ x) (h2 : x < 2 ^ 30) :
    ∃ x', A.f32 (.fin x) = .fin x' ∧ |x' - x| ≤ x / 15000000 := by
  have hx : 0 < x := lt_of_lt_of_le (by positivity) h1
  obtain ⟨w, hw, h⟩ := hA
  have hw' : ∃ y, w (.fin x) = .fin y ∧ |y - x| ≤ x / 1000000000 := by
    rcases hw with hw | hw
    · exact ⟨x, hw _, by simp; positivity⟩
    · obtain ⟨a, b⟩ := log_bounds x 30 h1 h2
      obtain ⟨y, hy, hn⟩ := Fmt.round_rel double (by decide) x hx (by rw [double_bias]; omega) (by rw [double_bias]; omega)
      refine ⟨y, by rw [hw]; exact hy, le_trans hn ?_⟩
      rw [double_mant]
      refine div_le_div_of_nonneg_left hx.le (by norm_num) (by norm_num)
  obtain ⟨y, hy, hn⟩ := hw'
  have hb := abs_le.mp hn
  have hy0 : 0 < y := by linarith
  have hl1 : (1 : K) / 2 ^ 31 ≤ y := by
    have : (1 : K) / 2 ^ 31 = 1 / 2 ^ 30 / 2 := by norm_num
    rw [this]
    linarith
  have hl2 : y < (2 : K) ^ 31 := by
    have : (2 : K) ^ 31 = 2 ^ 30 * 2 := by norm_num
    rw [this]
    linarith
  obtain ⟨a, b⟩ := log_bounds y 31 hl1 hl2
  obtain ⟨z, hz, hn'⟩ := Fmt.round_rel single (by decide) y hy0 (by rw [single_bias]; omega) (by rw [single_bias]; omega)
  refine ⟨z, by rw [h, hy]; exact hz, ?_⟩
  rw [single_mant] at hn'
  norm_num at hn'
  have hb' := abs_le.mp hn'
  rw [abs_le]
  constructor <;> linarith

theorem rounds_near' {A : Arith K} (hA : Spec.Rounds A) (x0 x : K) (k : ℕ) (hk : k ≤ 10) (h1 : 1 / 2 ^ 20 ≤ x0)
    (h2 : x0 ≤ 2 ^ 20) (hx : |x - x0| ≤ k * (x0 / 14000000)) :
    ∃ x', A.f32 (.fin x) = .fin x' ∧ |x' - x0| ≤ (k + 1 : ℕ) * (x0 / 14000000) := by
  have h0 : 0 < x0 := lt_of_lt_of_le (by positivity) h1
  have hkK : (k : K) ≤ 10 := by exact_mod_cast hk
  have hkx := mul_le_mul_of_nonneg_right hkK (show 0 ≤ x0 / 14000000 by positivity)
  have hb := abs_le.mp hx
  obtain ⟨x', h, hn⟩ := rounds_near hA x
    (by
      have : (1 : K) / 2 ^ 30 ≤ 1 / 2 ^ 20 / 2 := by norm_num
      linarith)
    (by
      have : (2 : K) ^ 20 * 2 < 2 ^ 30 := by norm_num
      linarith)
  refine ⟨x', h, ?_⟩
  have hb' := abs_le.mp hn
  push_cast
  rw [abs_le]
  constructor <;> linarith

/-! ## Empty lists with an output depth -/

/-- A value taken from one depth to another by two Ranges and an empty list. -/
def depthStep (A : Arith K) (din dout : AVal) (x : Flt K) : Flt K :=
  A.f32 (normalizedToBitDepth (A.f32 (A.f32 (A.f32 (A.f32 (bitDepthToNormalized x (some din)))))) (some dout))

theorem convert_values (A : Arith K) (compat : ℕ) (p : PixelArray K) (d : AVal) (hd : d ∈ bitDepthValues) (s : ℕ)
    (v : List (Flt K)) :
    filterValues A compat (filterJob [] p (some d)).2 s v = .ok (v.map (depthStep A p.depth d)) := by
  unfold filterValues filterJob
  have h : (none : Depth) ≠ some p.depth := by simp
  have h' : (none : Depth) ≠ some d := by simp
  have hi : listInDepth ([] : List (Node K)) = none := rfl
  have ho : listOutDepth ([] : List (Node K)) = none := rfl
  simp only [hi, ho, if_pos h, if_pos h', if_pos hd, depthRange_none_out, depthRange_none_in, range_depths, py_ok_bind]
  have hl : ∀ l : List (Flt K), processList A compat [] l s = .ok (l.map A.f32) := by
    intro l; unfold processList; rfl
  simp only [hl, py_ok_bind, range_depths, List.map_map]
  congr 1

theorem convert_depth (p : PixelArray K) (d : AVal) (hd : d ∈ bitDepthValues) :
    (filterJob ([] : List (Node K)) p (some d)).1 = d := by
  unfold filterJob
  simp only [if_pos hd]

/-- Filtering with an empty list and an output depth. -/
theorem filter_convert (A : Arith K) (compat : ℕ) (img : Image K) (d : AVal) (hd : d ∈ bitDepthValues) (workers : ℕ)
    (hw : 1 < workers) (schedule : List ℕ) (hs : Spec.Sized img) (hm : 0 < img.width * img.channels)
    (hh : 2 ≤ img.height) (hf : Spec.Finished workers img.height schedule) (p : PixelArray K)
    (hr : readPixelArray (some img) = .ok p) :
    filterImage A compat (some img) [] (some d) workers schedule = (do
      let out ← writePixelArray
        (((p.data.slice A 0 p.data.length).map (depthStep A p.depth d)).map A.f32) d img
      .ok (some out)) := by
  obtain ⟨hi, hl⟩ := read_image hr
  have h1 : Spec.filteredRows A compat (filterJob [] p (some d)).2
      = .ok ((List.range p.image.height).map fun r =>
        ((filterJob [] p (some d)).2.row A r).map (depthStep A p.depth d)) :=
    py_mapM_ok _ _ _ fun r _ => convert_values A compat p d hd _ _
  have h2 : ((List.range p.image.height).map fun r =>
      ((filterJob [] p (some d)).2.row A r).map (depthStep A p.depth d)).flatten
      = (p.data.slice A 0 p.data.length).map (depthStep A p.depth d) := by
    have := slice_chunks A p.data (p.image.width * p.image.channels) p.image.height 0
    rw [Nat.zero_mul, Nat.zero_add, ← List.range_eq_range'] at this
    rw [show p.data.length = p.image.height * (p.image.width * p.image.channels) by rw [hl, hi, hs]; ring,
      ← this, List.map_flatten, List.map_map]
    congr 1
    refine List.map_congr_left fun r _ => ?_
    simp only [Function.comp, Job.row, filterJob, Nat.mul_assoc]
  rw [C73_partial A compat img [] (some d) workers hw schedule hs hm hh hf p hr _ h1, h2, convert_depth p d hd]

/-! ## C87: there and back -/

/-- The integer depths. -/
def Spec.Width (n : ℕ) (d : AVal) : Prop :=
  (n, d) ∈ [(8, AVal.str "8i"), (10, .str "10i"), (12, .str "12i"), (16, .str "16i")]

theorem width_cases {n : ℕ} {d : AVal} (h : Spec.Width n d) :
    (n = 8 ∨ n = 10 ∨ n = 12 ∨ n = 16) ∧ d ∈ bitDepthValues ∧
      ∀ x : Flt K, bitDepthToNormalized x (some d) = x / .fin (2 ^ n - 1) ∧
        normalizedToBitDepth x (some d) = x * .fin (2 ^ n - 1) := by
  unfold Spec.Width at h
  simp only [List.mem_cons, Prod.mk.injEq, List.not_mem_nil, or_false] at h
  rcases h with ⟨rfl, rfl⟩ | ⟨rfl, rfl⟩ | ⟨rfl, rfl⟩ | ⟨rfl, rfl⟩ <;>
    refine ⟨by simp, by decide, fun x => ?_⟩ <;>
    simp [bitDepthToNormalized, normalizedToBitDepth]

theorem width_pos {n : ℕ} (h : n = 8 ∨ n = 10 ∨ n = 12 ∨ n = 16) : (0 : K) < 2 ^ n - 1 := by
  rcases h with rfl | rfl | rfl | rfl <;> norm_num

theorem width_cast (n : ℕ) : ((2 ^ n - 1 : ℕ) : K) = 2 ^ n - 1 := by
  rw [Nat.cast_sub Nat.one_le_two_pow]
  simp

/-- A sample whose value is a whole number at the other depth. -/
theorem depthStep_whole {A : Arith K} (hA : Spec.Rounds A) {n m : ℕ} {din dout : AVal} (hn : Spec.Width n din)
    (hm : Spec.Width m dout) (v k : ℕ) (hk : k < 2 ^ m) (h : v * (2 ^ m - 1) = k * (2 ^ n - 1)) :
    depthStep A din dout (.fin (v : K)) = .fin (k : K) := by
  obtain ⟨cn, -, en⟩ := width_cases (K := K) hn
  obtain ⟨cm, -, em⟩ := width_cases (K := K) hm
  have pn := width_pos (K := K) cn
  have pm := width_pos (K := K) cm
  obtain ⟨w, hw, hf⟩ := hA
  obtain ⟨q, h1, h2, h3⟩ := single_scale (K := K) hw m cm k hk
  have hK : (v : K) * (2 ^ m - 1) = k * (2 ^ n - 1) := by
    rw [← width_cast, ← width_cast]
    exact_mod_cast h
  have hdiv : (Flt.fin (v : K) : Flt K) / .fin (2 ^ n - 1) = .fin ((k : K) / (2 ^ m - 1)) := by
    change Flt.div _ _ = _
    simp only [Flt.div, if_neg pn.ne']
    congr 1
    rw [div_eq_div_iff pn.ne' pm.ne', hK]
  have hmul : (Flt.fin q : Flt K) * .fin (2 ^ m - 1) = .fin (q * (2 ^ m - 1)) := rfl
  unfold depthStep
  rw [(en _).1, hdiv, (em _).2]
  simp only [hf, h1, h2, hmul, h3]

/-- A sample between two whole numbers at the other depth stays between them. -/
theorem depthStep_between {A : Arith K} (hA : Spec.Rounds A) {n m : ℕ} {din dout : AVal} (hn : Spec.Width n din)
    (hm : Spec.Width m dout) (hnm : n + m ≤ 20) (v : ℕ) (hv : v < 2 ^ n) (h : ¬ (2 ^ n - 1) ∣ v * (2 ^ m - 1)) :
    ∃ y : K, A.f32 (depthStep A din dout (.fin (v : K))) = .fin y ∧
      ((v * (2 ^ m - 1) / (2 ^ n - 1) : ℕ) : K) < y ∧
      y < ((v * (2 ^ m - 1) / (2 ^ n - 1) : ℕ) : K) + 1 := by
  obtain ⟨cn, -, en⟩ := width_cases (K := K) hn
  obtain ⟨cm, -, em⟩ := width_cases (K := K) hm
  have pn := width_pos (K := K) cn
  have pm := width_pos (K := K) cm
  have hv0 : 0 < v := by
    rcases Nat.eq_zero_or_pos v with rfl | hv0
    · simp at h
    · exact hv0
  have hv1 : (1 : K) ≤ v := by exact_mod_cast hv0
  have hvM : (v : K) ≤ 2 ^ n - 1 := by
    rw [← width_cast]
    exact_mod_cast (show v ≤ 2 ^ n - 1 by omega)
  have hN : (2 : K) ^ n - 1 ≤ 65535 := by rcases cn with rfl | rfl | rfl | rfl <;> norm_num
  have hM : (1 : K) ≤ 2 ^ m - 1 ∧ (2 : K) ^ m - 1 ≤ 65535 := by
    rcases cm with rfl | rfl | rfl | rfl <;> norm_num
  have hprod : ((2 : K) ^ n - 1) * (2 ^ m - 1) < 1048576 := by
    rcases cn with rfl | rfl | rfl | rfl <;> rcases cm with rfl | rfl | rfl | rfl <;>
      first
        | (exfalso; clear h hv; omega)
        | norm_num
  set q0 : K := (v : K) / (2 ^ n - 1) with hq0
  have hq1 : (1 : K) / 2 ^ 16 ≤ q0 := by
    rw [hq0, div_le_div_iff₀ (by norm_num) pn]
    norm_num
    linarith
  have hq2 : q0 ≤ 1 := by
    rw [hq0, div_le_one pn]
    exact hvM
  have hlow : (1 : K) / 2 ^ 20 ≤ q0 := le_trans (by norm_num) hq1
  have hhigh : q0 ≤ 2 ^ 20 := le_trans hq2 (by norm_num)
  obtain ⟨x1, f1, b1⟩ := rounds_near' hA q0 q0 0 (by norm_num) hlow hhigh (by simp)
  obtain ⟨x2, f2, b2⟩ := rounds_near' hA q0 x1 1 (by norm_num) hlow hhigh b1
  obtain ⟨x3, f3, b3⟩ := rounds_near' hA q0 x2 2 (by norm_num) hlow hhigh b2
  obtain ⟨x4, f4, b4⟩ := rounds_near' hA q0 x3 3 (by norm_num) hlow hhigh b3
  have hq0p : 0 < q0 := lt_of_lt_of_le (by positivity) hq1
  have hy0 : |x4 * (2 ^ m - 1) - q0 * (2 ^ m - 1)| ≤ ((4 : ℕ) : K) * (q0 * (2 ^ m - 1) / 14000000) := by
    rw [← sub_mul, abs_mul, abs_of_pos pm]
    calc |x4 - q0| * (2 ^ m - 1) ≤ ((3 + 1 : ℕ) : K) * (q0 / 14000000) * (2 ^ m - 1) :=
          mul_le_mul_of_nonneg_right b4 pm.le
      _ = _ := by push_cast; ring
  have hs1 : q0 ≤ q0 * (2 ^ m - 1) := le_mul_of_one_le_right hq0p.le hM.1
  have hs2 : q0 * (2 ^ m - 1) ≤ 2 ^ 20 := by
    calc q0 * (2 ^ m - 1) ≤ 1 * (2 ^ m - 1) := mul_le_mul_of_nonneg_right hq2 pm.le
      _ ≤ 65535 := by linarith [hM.2]
      _ ≤ 2 ^ 20 := by norm_num
  obtain ⟨y5, f5, b5⟩ := rounds_near' hA _ _ 4 (by norm_num) (hlow.trans hs1) hs2 hy0
  obtain ⟨y6, f6, b6⟩ := rounds_near' hA _ _ 5 (by norm_num) (hlow.trans hs1) hs2 b5
  refine ⟨y6, ?_, ?_⟩
  · have hdiv : (Flt.fin (v : K) : Flt K) / .fin (2 ^ n - 1) = .fin q0 := by
      change Flt.div _ _ = _
      simp only [Flt.div, if_neg pn.ne', hq0]
    have hmul : (Flt.fin x4 : Flt K) * .fin (2 ^ m - 1) = .fin (x4 * (2 ^ m - 1)) := rfl
    unfold depthStep
    rw [(en _).1, hdiv, (em _).2, f1, f2, f3, f4, hmul, f5, f6]
  · have hdm := Nat.div_add_mod (v * (2 ^ m - 1)) (2 ^ n - 1)
    have hpos : 0 < 2 ^ n - 1 := by omega
    have hr0 : 0 < v * (2 ^ m - 1) % (2 ^ n - 1) := Nat.pos_of_ne_zero fun h0 => h (Nat.dvd_of_mod_eq_zero h0)
    have hr1 := Nat.mod_lt (v * (2 ^ m - 1)) hpos
    generalize v * (2 ^ m - 1) / (2 ^ n - 1) = k at hdm ⊢
    generalize v * (2 ^ m - 1) % (2 ^ n - 1) = r at hdm hr0 hr1
    have hdmK : ((2 : K) ^ n - 1) * k + r = v * (2 ^ m - 1) := by
      rw [← width_cast, ← width_cast]
      exact_mod_cast hdm
    have hr0K : (1 : K) ≤ r := by exact_mod_cast hr0
    have hr1K : (r : K) + 1 ≤ 2 ^ n - 1 := by
      rw [← width_cast]
      exact_mod_cast hr1
    have hq : q0 * (2 ^ m - 1) * (2 ^ n - 1) = (2 ^ n - 1) * k + r := by
      rw [hdmK, hq0]
      field_simp
    have hqs : q0 * (2 ^ m - 1) * (2 ^ n - 1) < 1048576 := by
      calc q0 * (2 ^ m - 1) * (2 ^ n - 1) ≤ 1 * (2 ^ m - 1) * (2 ^ n - 1) :=
            mul_le_mul_of_nonneg_right (mul_le_mul_of_nonneg_right hq2 pm.le) pn.le
        _ = (2 ^ n - 1) * (2 ^ m - 1) := by ring
        _ < _ := hprod
    have hb := abs_le.mp b6
    push_cast at hb
    constructor
    · refine lt_of_mul_lt_mul_right ?_ pn.le
      have := mul_le_mul_of_nonneg_right hb.1 pn.le
      linarith
    · refine lt_of_mul_lt_mul_right ?_ pn.le
      have := mul_le_mul_of_nonneg_right hb.2 pn.le
      linarith

theorem store_between (n shift k : ℕ) (y : K) (h1 : (k : K) ≤ y) (h2 : y < k + 1) (h : k * 2 ^ shift < 2 ^ n)
    (hn : n ≤ 16) : storeUInt n shift (.fin y) = .ok (k * 2 ^ shift) := by
  rw [← store_word (K := K) n shift k h hn]
  have hk : (0 : K) ≤ k := Nat.cast_nonneg k
  have hf : ⌊y⌋ = (k : ℤ) := Int.floor_eq_iff.mpr ⟨by exact_mod_cast h1, by exact_mod_cast h2⟩
  have e : truncInt (.fin y) = truncInt (.fin (k : K)) := by
    unfold truncInt
    simp only [if_neg (not_lt.mpr hk), if_neg (not_lt.mpr (hk.trans h1)), hf, Int.floor_natCast]
  unfold storeUInt
  rw [e]

/-- What is stored of a sample converted to another depth: it is cut, not rounded. -/
theorem store_step {A : Arith K} (hA : Spec.Rounds A) {n m : ℕ} {din dout : AVal} (hn : Spec.Width n din)
    (hm : Spec.Width m dout) (v : ℕ) (hv : v < 2 ^ n)
    (hnm' : n + m ≤ 20 ∨ (2 ^ n - 1) ∣ v * (2 ^ m - 1)) (N s : ℕ) (hN : N ≤ 16) (hs : N = m + s) :
    storeUInt N s (A.f32 (depthStep A din dout (.fin (v : K))))
      = .ok (v * (2 ^ m - 1) / (2 ^ n - 1) * 2 ^ s) := by
  have hpm : 1 ≤ 2 ^ m := Nat.one_le_two_pow
  have hp : 0 < 2 ^ n - 1 := by
    obtain ⟨cn, -, -⟩ := width_cases (K := K) hn
    rcases cn with rfl | rfl | rfl | rfl <;> norm_num
  have hk : v * (2 ^ m - 1) / (2 ^ n - 1) < 2 ^ m := by
    have : v * (2 ^ m - 1) / (2 ^ n - 1) ≤ 2 ^ m - 1 := by
      rw [Nat.div_le_iff_le_mul_add_pred hp]
      have := Nat.mul_le_mul_right (2 ^ m - 1) (show v ≤ 2 ^ n - 1 by omega)
      omega
    omega
  have hlt : v * (2 ^ m - 1) / (2 ^ n - 1) * 2 ^ s < 2 ^ N := by
    rw [hs, pow_add]
    exact Nat.mul_lt_mul_of_pos_right hk (by positivity)
  by_cases hd : (2 ^ n - 1) ∣ v * (2 ^ m - 1)
  · rw [depthStep_whole hA hn hm v _ hk (Nat.div_mul_cancel hd).symm]
    have h24 : v * (2 ^ m - 1) / (2 ^ n - 1) < 2 ^ 16 :=
      lt_of_lt_of_le hk (Nat.pow_le_pow_right (by norm_num) (by omega))
    rw [rounds_words hA _ h24]
    exact store_word N s _ hlt hN
  · rcases hnm' with h | h
    · obtain ⟨y, hy, h1, h2⟩ := depthStep_between hA hn hm h v hv hd
      rw [hy]
      exact store_between N s _ y h1.le h2 hlt hN
    · exact absurd h hd

/-- A byte image written with `m` bits. -/
theorem bytes_up {A : Arith K} (hA : Spec.Rounds A) (compat w h c : ℕ) (b : Option ℕ) (l : List ℕ)
    (hl : ∀ x ∈ l, x < 2 ^ 8) (m : ℕ) (d : AVal) (hm : Spec.Width m d) (h8 : m ≠ 8) (workers : ℕ) (hw : 1 < workers)
    (schedule : List ℕ) (hs : l.length = w * h * c) (hp : 0 < w * c) (hh : 2 ≤ h) (hf : Spec.Finished workers h schedule) :
    filterImage A compat (some ⟨.uint8, w, h, c, b, .ints l⟩) [] (some d) workers schedule
      = .ok (some ⟨.uint16, w, h, c, some m, .ints (l.map fun x => x * (2 ^ m - 1) / 255 * 2 ^ (16 - m))⟩) := by
  have hr : readPixelArray (some (⟨.uint8, w, h, c, b, .ints l⟩ : Image K))
      = .ok ⟨.ints l, .str "8i", ⟨.uint8, w, h, c, b, .ints l⟩⟩ := by
    cases b <;> rfl
  obtain ⟨cm, hd, -⟩ := width_cases (K := K) hm
  rw [filter_convert A compat ⟨.uint8, w, h, c, b, .ints l⟩ d hd workers hw schedule hs hp hh hf _ hr]
  have hsl := slice_all A (rounds_words hA) l fun x hx => by have := hl x hx; omega
  simp only [Samples.length, hsl]
  have hst : (((l.map fun x : ℕ => Flt.fin (x : K)).map (depthStep A (.str "8i") d)).map A.f32).mapM
      (storeUInt 16 (16 - m)) = .ok (l.map fun x => x * (2 ^ m - 1) / 255 * 2 ^ (16 - m)) := by
    rw [py_mapM_map, py_mapM_map, py_mapM_map]
    refine py_mapM_ok _ _ _ fun x hx => ?_
    refine store_step hA (n := 8) (by simp [Spec.Width]) hm x (hl x hx) ?_ 16 (16 - m) le_rfl (by omega)
    rcases cm with rfl | rfl | rfl | rfl
    · exact absurd rfl h8
    · exact .inl (by norm_num)
    · exact .inl (by norm_num)
    · exact .inr (Dvd.dvd.mul_left (by norm_num) x)
  unfold Spec.Width at hm
  simp only [List.mem_cons, Prod.mk.injEq, List.not_mem_nil, or_false] at hm
  rcases hm with ⟨rfl, rfl⟩ | ⟨rfl, rfl⟩ | ⟨rfl, rfl⟩ | ⟨rfl, rfl⟩
  · exact absurd rfl h8
  all_goals
    norm_num at hst
    cases b <;> simp [writePixelArray, depthType, depthBits, hst, py_pure]

/-- An image of `m` bits written as bytes. -/
theorem bytes_down {A : Arith K} (hA : Spec.Rounds A) (compat w h c : ℕ) (l : List ℕ)
    (m : ℕ) (d : AVal) (hm : Spec.Width m d) (h8 : m ≠ 8) (hl : ∀ x ∈ l, x < 2 ^ m)
    (hl' : m = 16 → ∀ x ∈ l, 65535 ∣ x * 255) (workers : ℕ) (hw : 1 < workers)
    (schedule : List ℕ) (hs : l.length = w * h * c) (hp : 0 < w * c) (hh : 2 ≤ h) (hf : Spec.Finished workers h schedule) :
    filterImage A compat (some ⟨.uint16, w, h, c, some m, .ints (l.map (· * 2 ^ (16 - m)))⟩) [] (some (.str "8i")) workers
        schedule
      = .ok (some ⟨.uint8, w, h, c, some 8, .ints (l.map fun x => x * 255 / (2 ^ m - 1))⟩) := by
  obtain ⟨cm, -, -⟩ := width_cases (K := K) hm
  have hm16 : m ≤ 16 := by omega
  have hr := read_packed (⟨.uint16, w, h, c, some m, .ints (l.map (· * 2 ^ (16 - m)))⟩ : Image K) m hm16 rfl rfl _ rfl
  have hid : (l.map (· * 2 ^ (16 - m))).map (· / 2 ^ (16 - m)) = l := by
    rw [List.map_map]
    conv_rhs => rw [← List.map_id l]
    exact List.map_congr_left fun x _ => Nat.mul_div_cancel _ (by positivity)
  rw [hid] at hr
  have hdep : (if m = 10 then AVal.str "10i" else if m = 12 then .str "12i" else .str "16i") = d := by
    unfold Spec.Width at hm
    simp only [List.mem_cons, Prod.mk.injEq, List.not_mem_nil, or_false] at hm
    rcases hm with ⟨rfl, rfl⟩ | ⟨rfl, rfl⟩ | ⟨rfl, rfl⟩ | ⟨rfl, rfl⟩
    · exact absurd rfl h8
    all_goals rfl
  rw [hdep] at hr
  rw [filter_convert A compat ⟨.uint16, w, h, c, some m, .ints (l.map (· * 2 ^ (16 - m)))⟩ (.str "8i") (by decide) workers hw schedule (by
    simp only [Spec.Sized, Samples.length, List.length_map, hs]) hp hh hf _ hr]
  have hpow : 2 ^ m ≤ 2 ^ 16 := Nat.pow_le_pow_right (by norm_num) hm16
  have hsl := slice_all A (rounds_words hA) l fun x hx => by have := hl x hx; omega
  simp only [Samples.length, hsl]
  have hst : (((l.map fun x : ℕ => Flt.fin (x : K)).map (depthStep A d (.str "8i"))).map A.f32).mapM
      (storeUInt 8 0) = .ok (l.map fun x => x * 255 / (2 ^ m - 1)) := by
    rw [py_mapM_map, py_mapM_map, py_mapM_map]
    refine py_mapM_ok _ _ _ fun x hx => ?_
    have := store_step hA (m := 8) (dout := .str "8i") hm (by simp [Spec.Width]) x (hl x hx) (by
      rcases cm with rfl | rfl | rfl | rfl
      · exact absurd rfl h8
      · exact .inl (by norm_num)
      · exact .inl (by norm_num)
      · exact .inr (by simpa using hl' rfl x hx)) 8 0 (by norm_num) (by norm_num)
    rw [this]
    norm_num
  generalize List.map A.f32 _ = pixels at hst ⊢
  simp [writePixelArray, depthType, depthBits, hst, py_pure]

/-- C87, what happens to bytes: converted to 10, 12 or 16 bits and back, a sample that is not a whole number
at the other depth loses 1. -/
theorem C87_loses (A : Arith K) (hA : Spec.Rounds A) (compat w h c : ℕ) (b : Option ℕ) (l : List ℕ)
    (hl : ∀ x ∈ l, x < 2 ^ 8) (m : ℕ) (d : AVal) (hm : Spec.Width m d) (h8 : m ≠ 8) (workers : ℕ) (hw : 1 < workers)
    (schedule : List ℕ) (hs : l.length = w * h * c) (hp : 0 < w * c) (hh : 2 ≤ h) (hf : Spec.Finished workers h schedule) :
    ∃ mid, filterImage A compat (some ⟨.uint8, w, h, c, b, .ints l⟩) [] (some d) workers schedule = .ok (some mid) ∧
      filterImage A compat (some mid) [] (some (.str "8i")) workers schedule
        = .ok (some ⟨.uint8, w, h, c, some 8, .ints (l.map fun x => if 255 ∣ x * (2 ^ m - 1) then x else x - 1)⟩) := by
  obtain ⟨cm, -, -⟩ := width_cases (K := K) hm
  refine ⟨_, bytes_up hA compat w h c b l hl m d hm h8 workers hw schedule hs hp hh hf, ?_⟩
  have hm8 : 1023 ≤ 2 ^ m - 1 := by
    rcases cm with rfl | rfl | rfl | rfl
    · exact absurd rfl h8
    all_goals norm_num
  have hdown := bytes_down hA compat w h c (l.map fun x => x * (2 ^ m - 1) / 255) m d hm h8 (by
    intro y hy
    obtain ⟨x, hx, rfl⟩ := List.mem_map.mp hy
    have h1 : x * (2 ^ m - 1) ≤ 255 * (2 ^ m - 1) := Nat.mul_le_mul_right _ (by have := hl x hx; omega)
    have : x * (2 ^ m - 1) / 255 ≤ 2 ^ m - 1 := Nat.div_le_of_le_mul h1
    omega) (by
    intro h16 y hy
    obtain ⟨x, hx, rfl⟩ := List.mem_map.mp hy
    subst h16
    refine ⟨x, ?_⟩
    norm_num
    omega) workers hw schedule (by rw [List.length_map, hs]) hp hh hf
  rw [List.map_map, List.map_map] at hdown
  rw [show (l.map fun x => x * (2 ^ m - 1) / 255 * 2 ^ (16 - m))
    = l.map ((· * 2 ^ (16 - m)) ∘ fun x => x * (2 ^ m - 1) / 255) from rfl, hdown]
  congr 4
  refine List.map_congr_left fun x hx => ?_
  simp only [Function.comp]
  generalize 2 ^ m - 1 = M at hm8
  split
  · rename_i hd
    rw [Nat.div_mul_cancel hd, Nat.mul_div_cancel _ (by omega)]
  · rename_i hd
    have hx8 := hl x hx
    have hdm := Nat.div_add_mod (x * M) 255
    have hr0 : 0 < x * M % 255 := Nat.pos_of_ne_zero fun h0 => hd (Nat.dvd_of_mod_eq_zero h0)
    have hr1 := Nat.mod_lt (x * M) (show 0 < 255 by norm_num)
    have hx0 : 0 < x := by
      rcases Nat.eq_zero_or_pos x with rfl | h
      · simp at hd
      · exact h
    rw [Nat.div_eq_iff (by omega)]
    obtain ⟨y, rfl⟩ := Nat.exists_eq_add_of_lt hx0
    rw [show (0 + y + 1) * M = y * M + M by ring] at hdm hr0 hr1 ⊢
    rw [show 0 + y + 1 - 1 = y by omega]
    generalize y * M = z at *
    omega

/-- C87 is false: for 10 bits, every sample from 1 to 254 that is not a multiple of 85 is changed. -/
theorem C87_false (A : Arith K) (hA : Spec.Rounds A) (compat : ℕ) (x : ℕ) (hx : x < 2 ^ 8) (h85 : ¬ 85 ∣ x) :
    ∃ mid, filterImage A compat (some ⟨.uint8, 1, 2, 1, none, .ints [x, x]⟩) [] (some (.str "10i")) 2 [0, 1, 1, 0]
        = .ok (some mid) ∧
      filterImage A compat (some mid) [] (some (.str "8i")) 2 [0, 1, 1, 0]
        = .ok (some ⟨.uint8, 1, 2, 1, some 8, .ints [x - 1, x - 1]⟩) := by
  have := C87_loses A hA compat 1 2 1 none [x, x] (by simpa using hx) 10 (.str "10i") (by simp [Spec.Width]) (by norm_num) 2
    (by norm_num) [0, 1, 1, 0] rfl (by norm_num) (by norm_num) (by unfold Spec.Finished; decide)
  simp only [List.map_cons, List.map_nil] at this
  rwa [if_neg (by omega)] at this

/-- C87 for bytes written with 16 bits and read back: the image is unchanged.  Missing: 10 and 12 bits, where it is false,
and images of more than 8 bits. -/
theorem C87_sixteen_partial (A : Arith K) (hA : Spec.Rounds A) (compat w h c : ℕ) (b : Option ℕ) (l : List ℕ)
    (hl : ∀ x ∈ l, x < 2 ^ 8) (workers : ℕ) (hw : 1 < workers)
    (schedule : List ℕ) (hs : l.length = w * h * c) (hp : 0 < w * c) (hh : 2 ≤ h) (hf : Spec.Finished workers h schedule) :
    ∃ mid, filterImage A compat (some ⟨.uint8, w, h, c, b, .ints l⟩) [] (some (.str "16i")) workers schedule = .ok (some mid) ∧
      filterImage A compat (some mid) [] (some (.str "8i")) workers schedule
        = .ok (some ⟨.uint8, w, h, c, some 8, .ints l⟩) := by
  obtain ⟨mid, h1, h2⟩ := C87_loses A hA compat w h c b l hl 16 (.str "16i") (by simp [Spec.Width]) (by norm_num) workers hw
    schedule hs hp hh hf
  refine ⟨mid, h1, ?_⟩
  rw [h2]
  congr 4
  conv_rhs => rw [← List.map_id l]
  exact List.map_congr_left fun x _ => if_pos (Dvd.dvd.mul_left (by norm_num) x)

example : ∃ l : List ℕ, (∀ x ∈ l, x < 2 ^ 8) ∧ l.length = 1 * 2 * 1 ∧ ¬ 85 ∣ 254 ∧
    Spec.Finished 2 2 [0, 1, 1, 0] ∧ Spec.Rounds floatArith :=
  ⟨[1, 254], by simp, rfl, by norm_num, by unfold Spec.Finished; decide, ⟨_, .inr fun _ => rfl, fun _ => rfl⟩⟩

/-- C87 by way of floats, for 8- and 16-bit images that do not declare their bits: the image is unchanged. Missing: images that
do. -/
theorem C87_float_partial (A : Arith K) (hA : Spec.Rounds A) (compat w h c n : ℕ) (type : ImgType) (d : AVal)
    (ht : (n, type, d) ∈ [(8, ImgType.uint8, AVal.str "8i"), (16, .uint16, .str "16i")]) (l : List ℕ)
    (hl : ∀ x ∈ l, x < 2 ^ n) (workers : ℕ) (hw : 1 < workers)
    (schedule : List ℕ) (hs : l.length = w * h * c) (hp : 0 < w * c) (hh : 2 ≤ h) (hf : Spec.Finished workers h schedule) :
    ∃ mid, filterImage A compat (some ⟨type, w, h, c, none, .ints l⟩) [] (some (.str "32f")) workers schedule
        = .ok (some mid) ∧
      filterImage A compat (some mid) [] (some d) workers schedule = .ok (some ⟨type, w, h, c, some n, .ints l⟩) := by
  have hn : Spec.Width n d := by
    simp only [List.mem_cons, Prod.mk.injEq, List.not_mem_nil, or_false] at ht
    rcases ht with ⟨rfl, -, rfl⟩ | ⟨rfl, -, rfl⟩ <;> simp [Spec.Width]
  have hr : readPixelArray (some (⟨type, w, h, c, none, .ints l⟩ : Image K))
      = .ok ⟨.ints l, d, ⟨type, w, h, c, none, .ints l⟩⟩ := by
    simp only [List.mem_cons, Prod.mk.injEq, List.not_mem_nil, or_false] at ht
    rcases ht with ⟨-, rfl, rfl⟩ | ⟨-, rfl, rfl⟩ <;> rfl
  obtain ⟨cn, hd, en⟩ := width_cases (K := K) hn
  have pn := width_pos (K := K) cn
  have hpow : 2 ^ n ≤ 2 ^ 16 := Nat.pow_le_pow_right (by norm_num) (by omega)
  have h16 : ∀ x ∈ l, x < 2 ^ 16 := fun x hx => by have := hl x hx; omega
  -- the stored floats
  let q : ℕ → Flt K := fun x => A.f32 (.fin ((x : K) / (2 ^ n - 1)))
  have hq : ∀ x ∈ l, A.f32 (q x) = q x ∧ A.f32 (q x * .fin (2 ^ n - 1)) = .fin (x : K) := by
    intro x hx
    obtain ⟨w, hw, hf⟩ := hA
    obtain ⟨y, h1, h2, h3⟩ := single_scale (K := K) hw n cn x (hl x hx)
    have hmul : (Flt.fin y : Flt K) * .fin (2 ^ n - 1) = .fin (y * (2 ^ n - 1)) := rfl
    simp only [q, hf, h1, h2, hmul, h3, and_self]
  have hmid : filterImage A compat (some ⟨type, w, h, c, none, .ints l⟩) [] (some (.str "32f")) workers schedule
      = .ok (some ⟨.float, w, h, c, none, .floats (l.map q)⟩) := by
    rw [filter_convert A compat ⟨type, w, h, c, none, .ints l⟩ (.str "32f") (by decide) workers hw schedule hs hp hh hf _ hr]
    have hsl := slice_all A (rounds_words hA) l h16
    simp only [Samples.length, hsl, List.map_map]
    have : l.map (A.f32 ∘ depthStep A d (.str "32f") ∘ fun x : ℕ => Flt.fin (x : K)) = l.map q := by
      refine List.map_congr_left fun x hx => ?_
      have hdiv : (Flt.fin (x : K) : Flt K) / .fin (2 ^ n - 1) = .fin ((x : K) / (2 ^ n - 1)) := by
        change Flt.div _ _ = _
        simp only [Flt.div, if_neg pn.ne']
      simp only [Function.comp, depthStep, (en _).1, hdiv, (depth_float _ (.str "32f") (.inr rfl)).2]
      change A.f32 (A.f32 (A.f32 (A.f32 (A.f32 (q x))))) = q x
      simp only [(hq x hx).1]
    rw [this]
    simp [writePixelArray, depthType, py_pure]
  refine ⟨_, hmid, ?_⟩
  have hr2 : readPixelArray (some (⟨.float, w, h, c, none, .floats (l.map q)⟩ : Image K))
      = .ok ⟨.floats (l.map q), .str "32f", ⟨.float, w, h, c, none, .floats (l.map q)⟩⟩ := rfl
  rw [filter_convert A compat ⟨.float, w, h, c, none, .floats (l.map q)⟩ d hd workers hw schedule (by
    simp only [Spec.Sized, Samples.length, List.length_map, hs]) hp hh hf _ hr2]
  have hpix : (((Samples.floats (l.map q)).slice A 0 (Samples.floats (l.map q)).length).map (depthStep A (.str "32f") d)).map A.f32
      = l.map fun x : ℕ => Flt.fin (x : K) := by
    simp only [Samples.slice, pySlice, Samples.length, List.drop_zero, Nat.sub_zero, List.take_length, List.map_map]
    refine List.map_congr_left fun x hx => ?_
    simp only [Function.comp, depthStep, (depth_float _ (.str "32f") (.inr rfl)).1, (hq x hx).1, (en _).2, (hq x hx).2]
    exact rounds_words hA x (h16 x hx)
  rw [hpix]
  have hst := store_words (K := K) n 0 (by omega) l (by simpa using hl)
  simp only [pow_zero, Nat.mul_one, List.map_id'] at hst
  simp only [List.mem_cons, Prod.mk.injEq, List.not_mem_nil, or_false] at ht
  rcases ht with ⟨rfl, rfl, rfl⟩ | ⟨rfl, rfl, rfl⟩ <;> simp [writePixelArray, depthType, depthBits, hst, py_pure]

/-- An image that declares its bits cannot be written as floats, whatever the list. -/
theorem C87_metadata (pixels : List (Flt K)) (src : Image K) (n : ℕ) (hb : src.bits = some n) (d : AVal)
    (hd : d = .str "16f" ∨ d = .str "32f") : writePixelArray pixels d src = .error .keyError := by
  rcases hd with rfl | rfl <;> simp [writePixelArray, depthType, depthBits, hb, py_pure] <;> rfl

/-! ## C88: values out of range -/

/-- The bits below a sample of `n` bits in the word that holds it. -/
def Spec.lowBits (n : ℕ) : ℕ := if n = 8 then 0 else 16 - n

/-- The type of the image that holds samples of `n` bits. -/
def Spec.wordType (n : ℕ) : ImgType := if n = 8 then .uint8 else .uint16

theorem write_words {n : ℕ} {d : AVal} (hn : Spec.Width n d) (pixels : List (Flt K)) (src : Image K) :
    writePixelArray pixels d src = (do
      let l ← pixels.mapM (storeUInt (if n = 8 then 8 else 16) (Spec.lowBits n))
      .ok ⟨Spec.wordType n, src.width, src.height, src.channels, some n, .ints l⟩) := by
  unfold Spec.Width at hn
  simp only [List.mem_cons, Prod.mk.injEq, List.not_mem_nil, or_false] at hn
  rcases hn with ⟨rfl, rfl⟩ | ⟨rfl, rfl⟩ | ⟨rfl, rfl⟩ | ⟨rfl, rfl⟩ <;> cases hb : src.bits <;>
    simp [writePixelArray, depthType, depthBits, Spec.lowBits, Spec.wordType, hb, py_pure]

/-- C88 for values in range: the integer part is written.  Missing: values out of range. -/
theorem C88_partial {n : ℕ} {d : AVal} (hn : Spec.Width n d) (pixels : List K)
    (hp : ∀ x ∈ pixels, 0 ≤ x ∧ x < 2 ^ n) (src : Image K) :
    writePixelArray (pixels.map .fin) d src = .ok ⟨Spec.wordType n, src.width, src.height, src.channels, some n,
      .ints (pixels.map fun x => ⌊x⌋.toNat * 2 ^ Spec.lowBits n)⟩ := by
  rw [write_words hn, py_mapM_map, py_mapM_ok _ (fun x : K => ⌊x⌋.toNat * 2 ^ Spec.lowBits n)]
  · rfl
  · intro x hx
    obtain ⟨h0, h1⟩ := hp x hx
    have hf : 0 ≤ ⌊x⌋ := Int.floor_nonneg.mpr h0
    have hc : ((⌊x⌋.toNat : ℕ) : K) = (⌊x⌋ : K) := by
      rw [← Int.cast_natCast, Int.toNat_of_nonneg hf]
    have hlt : ⌊x⌋.toNat < 2 ^ n := by
      have : ((⌊x⌋.toNat : ℕ) : K) < ((2 ^ n : ℕ) : K) := by
        rw [hc]
        push_cast
        exact lt_of_le_of_lt (Int.floor_le x) h1
      exact_mod_cast this
    obtain ⟨cn, -, -⟩ := width_cases (K := K) hn
    refine store_between _ _ _ x (by rw [hc]; exact Int.floor_le x) (by rw [hc]; exact Int.lt_floor_add_one x) ?_
      (by split <;> norm_num)
    unfold Spec.lowBits
    rcases cn with rfl | rfl | rfl | rfl <;> norm_num at hlt ⊢ <;> omega

theorem store_wrap (n N s : ℕ) (hN : N = n + s) (h16 : N ≤ 16) (x : Flt K) (i c : ℤ) (j : ℕ)
    (hi : truncInt x = .ok i) (hj : j < 2 ^ n) (hc : c = 1 ∨ c = -1) (hij : i = j + c * 2 ^ n) :
    storeUInt N s x = .ok (j * 2 ^ s) := by
  unfold storeUInt
  rw [hi, py_ok_bind]
  simp only
  have hNp : (2 : ℤ) ^ N = 2 ^ n * 2 ^ s := by rw [hN, pow_add]
  have hN16 : (2 : ℤ) ^ N ≤ 65536 := by
    calc (2 : ℤ) ^ N ≤ 2 ^ 16 := pow_le_pow_right₀ (by norm_num) h16
      _ = 65536 := by norm_num
  have hs0 : (0 : ℤ) < 2 ^ s := by positivity
  have hjK : (j : ℤ) + 1 ≤ 2 ^ n := by exact_mod_cast hj
  have hjs := mul_le_mul_of_nonneg_right hjK hs0.le
  have hj0 : (0 : ℤ) ≤ (j : ℤ) * 2 ^ s := by positivity
  have e : i * 2 ^ s = (j : ℤ) * 2 ^ s + 2 ^ N * c := by
    rw [hij, hNp]
    ring
  have h63 : (2 : ℤ) ^ 63 = 9223372036854775808 := by norm_num
  have hlt : (j : ℤ) * 2 ^ s < 2 ^ N := by
    rw [hNp]
    linarith
  rw [e, if_pos, Int.add_mul_emod_self_left, Int.emod_eq_of_lt hj0 hlt]
  · have : (j : ℤ) * 2 ^ s = ((j * 2 ^ s : ℕ) : ℤ) := by push_cast; rfl
    rw [py_pure, this, Int.toNat_natCast]
  · rw [h63]
    rcases hc with rfl | rfl <;> constructor <;> linarith

/-- C88 is false above the range: values wrap around and become dark. -/
theorem C88_high {n : ℕ} {d : AVal} (hn : Spec.Width n d) (x : K) (h1 : 2 ^ n ≤ x) (h2 : x < 2 ^ n + 2 ^ n) (src : Image K) :
    writePixelArray [.fin x] d src = .ok ⟨Spec.wordType n, src.width, src.height, src.channels, some n,
      .ints [⌊x - 2 ^ n⌋.toNat * 2 ^ Spec.lowBits n]⟩ := by
  obtain ⟨cn, -, -⟩ := width_cases (K := K) hn
  have hx0 : 0 ≤ x := le_trans (by positivity) h1
  have h0 : 0 ≤ ⌊x - 2 ^ n⌋ := Int.floor_nonneg.mpr (by linarith)
  have hlt : ⌊x - 2 ^ n⌋ < 2 ^ n := by
    have : ((⌊x - 2 ^ n⌋ : ℤ) : K) < ((2 ^ n : ℤ) : K) := by
      push_cast
      exact lt_of_le_of_lt (Int.floor_le _) (by linarith)
    exact_mod_cast this
  have hfl : ⌊x⌋ = ⌊x - 2 ^ n⌋ + 2 ^ n := by
    have : x - 2 ^ n = x - ((2 ^ n : ℤ) : K) := by push_cast; rfl
    rw [this, Int.floor_sub_intCast]
    ring
  have ht : truncInt (.fin x) = .ok ⌊x⌋ := by
    unfold truncInt
    simp only [if_neg (not_lt.mpr hx0)]
  rw [write_words hn, py_mapM_cons, py_mapM_nil,
    store_wrap n _ (Spec.lowBits n) (by unfold Spec.lowBits; split <;> omega) (by split <;> norm_num) _ _ 1
      ⌊x - 2 ^ n⌋.toNat ht (by rw [Int.toNat_lt h0]; exact_mod_cast hlt) (.inl rfl) (by
        rw [Int.toNat_of_nonneg h0, hfl, one_mul])]
  rfl

/-- C88 is false below the range: values wrap around and become bright. -/
theorem C88_low {n : ℕ} {d : AVal} (hn : Spec.Width n d) (x : K) (h1 : -2 ^ n ≤ x) (h2 : x ≤ -1) (src : Image K) :
    writePixelArray [.fin x] d src = .ok ⟨Spec.wordType n, src.width, src.height, src.channels, some n,
      .ints [⌈x + 2 ^ n⌉.toNat * 2 ^ Spec.lowBits n]⟩ := by
  obtain ⟨cn, -, -⟩ := width_cases (K := K) hn
  have hx0 : x < 0 := by linarith
  have h0 : 0 ≤ ⌈x + 2 ^ n⌉ := Int.ceil_nonneg (by linarith)
  have hlt : ⌈x + 2 ^ n⌉ < 2 ^ n := by
    have : ⌈x + 2 ^ n⌉ ≤ 2 ^ n - 1 := Int.ceil_le.mpr (by push_cast; linarith)
    linarith
  have hfl : ⌈x⌉ = ⌈x + 2 ^ n⌉ - 2 ^ n := by
    have : x + 2 ^ n = x + ((2 ^ n : ℤ) : K) := by push_cast; rfl
    rw [this, Int.ceil_add_intCast]
    ring
  have ht : truncInt (.fin x) = .ok ⌈x⌉ := by
    unfold truncInt
    simp only [if_pos hx0]
    rw [Int.floor_neg, neg_neg]
  rw [write_words hn, py_mapM_cons, py_mapM_nil,
    store_wrap n _ (Spec.lowBits n) (by unfold Spec.lowBits; split <;> omega) (by split <;> norm_num) _ _ (-1)
      ⌈x + 2 ^ n⌉.toNat ht (by rw [Int.toNat_lt h0]; exact_mod_cast hlt) (.inr rfl) (by
        rw [Int.toNat_of_nonneg h0, hfl]; ring)]
  rfl

/-- Infinities and NaN raise instead of being limited. -/
theorem C88_special {n : ℕ} {d : AVal} (hn : Spec.Width n d) (x : Flt K) (hx : ∀ v, x ≠ .fin v) (rest : List (Flt K))
    (src : Image K) : ∃ e, writePixelArray (x :: rest) d src = .error e := by
  rw [write_words hn, py_mapM_cons]
  unfold storeUInt
  cases x with
  | fin v => exact absurd rfl (hx v)
  | _ => exact ⟨_, rfl⟩

/-- C88 is false: doubling the values of a byte image, 200 becomes 144. -/
theorem C88_false : filterImage ratArith 0 (some ⟨.uint8, 1, 2, 3, none, .ints [200, 100, 0, 127, 128, 255]⟩) [doubler] none 2
      [0, 1, 1, 0]
    = .ok (some ⟨.uint8, 1, 2, 3, some 8, .ints [144, 200, 0, 254, 0, 254]⟩) := by decide +kernel

/-- White doubled, and a value below 0. -/
example : ∃ d, Spec.Width 10 d ∧ (2 : ℚ) ^ 10 ≤ 2046 ∧ (2046 : ℚ) < 2 ^ 10 + 2 ^ 10 ∧ -2 ^ 10 ≤ (-3 / 2 : ℚ) ∧ (-3 / 2 : ℚ) ≤ -1 ∧
    ∀ x ∈ [0, 1 / 2, (1023 : ℚ)], 0 ≤ x ∧ x < 2 ^ 10 :=
  ⟨.str "10i", by simp [Spec.Width], by norm_num, by norm_num, by norm_num, by norm_num, by
    intro x hx
    simp only [List.mem_cons, List.not_mem_nil, or_false] at hx
    rcases hx with rfl | rfl | rfl <;> norm_num⟩

/-! ## C89: rows that cannot be filtered -/

theorem py_mapM_error {α β : Type} (f : α → Py β) : ∀ (l : List α), (∃ x ∈ l, ∃ e, f x = .error e) → ∃ e, l.mapM f = .error e
  | [], h => by simp at h
  | a :: l, h => by
    rw [py_mapM_cons]
    cases ha : f a with
    | error e => exact ⟨e, rfl⟩
    | ok b =>
      obtain ⟨x, hx, e, he⟩ := h
      rcases List.mem_cons.mp hx with rfl | hx
      · rw [ha] at he; cases he
      · obtain ⟨e', h'⟩ := py_mapM_error f l ⟨x, hx, e, he⟩
        exact ⟨e', by rw [h']; rfl⟩

/-- C89 is false with worker processes: if any row raises, the function returns without an error and without an
image. -/
theorem C89_silent (A : Arith K) (compat : ℕ) (img : Image K) (ns : List (Node K)) (outBitDepth : Option AVal)
    (workers : ℕ) (hw : 1 < workers) (schedule : List ℕ) (hs : Spec.Sized img) (hm : 0 < img.width * img.channels)
    (hh : 2 ≤ img.height) (hf : Spec.Finished workers img.height schedule) (p : PixelArray K)
    (hr : readPixelArray (some img) = .ok p) (row : ℕ) (hrow : row < img.height) (e : PyErr)
    (he : filterValues A compat (filterJob ns p outBitDepth).2 img.channels ((filterJob ns p outBitDepth).2.row A row)
      = .error e) :
    filterImage A compat (some img) ns outBitDepth workers schedule = .ok none := by
  rw [C65_parallel A compat img ns outBitDepth workers hw schedule hs hm hf]
  unfold Spec.filterSequential
  obtain ⟨hi, hl⟩ := read_image hr
  obtain ⟨e1, e2, e3, e4⟩ := filterJob_size (ns := ns) (outBitDepth := outBitDepth) hi
  rw [hr]
  simp only [py_ok_bind]
  rw [sequential_eq A compat _ (by rw [e1, e2, e3, e4, hl, hs]) (by omega)]
  obtain ⟨e', h'⟩ := py_mapM_error (fun r => filterValues A compat (filterJob ns p outBitDepth).2
    (filterJob ns p outBitDepth).2.channels ((filterJob ns p outBitDepth).2.row A r))
    (List.range (filterJob ns p outBitDepth).2.height) ⟨row, by rw [List.mem_range, e3]; exact hrow, e, by rw [e4]; exact he⟩
  unfold Spec.filteredRows
  rw [h']
  rfl

/-- C89 in one process: an error in the row that is filtered is raised.  Missing: worker processes. -/
theorem C89_single_partial (A : Arith K) (compat : ℕ) (img : Image K) (ns : List (Node K)) (outBitDepth : Option AVal)
    (processes : ℕ) (hp : processes ≤ 1) (schedule : List ℕ) (p : PixelArray K) (hh : 2 ≤ img.height)
    (hr : readPixelArray (some img) = .ok p) (e : PyErr)
    (he : filterValues A compat (filterJob ns p outBitDepth).2 img.channels ((filterJob ns p outBitDepth).2.row A 5)
      = .error e) :
    filterImage A compat (some img) ns outBitDepth processes schedule = .error e := by
  obtain ⟨hi, hl⟩ := read_image hr
  obtain ⟨e1, e2, e3, e4⟩ := filterJob_size (ns := ns) (outBitDepth := outBitDepth) hi
  unfold filterImage
  rw [hr]
  simp only [py_ok_bind, if_neg (show ¬ 1 < processes by omega)]
  unfold filterRowStride
  rw [progress_ok _ (by omega)]
  simp only [py_ok_bind]
  rw [← e4] at he
  unfold Job.row at he
  rw [he]
  rfl

/-- A list with a Matrix that has no array. -/
def brokenList : List (Node ℚ) := [.leaf .matrix (newBase (.str "32f") (.str "32f") (.str "") (.str ""))]

example : ∃ e, filterValues ratArith 0 (filterJob brokenList ⟨(onesImage 2).data, .str "32f", onesImage 2⟩ none).2 3
    ((filterJob brokenList ⟨(onesImage 2).data, .str "32f", onesImage 2⟩ none).2.row ratArith 1) = .error e := ⟨_, rfl⟩

theorem C89_false : filterImage ratArith 0 (some (onesImage 6)) brokenList none 2 [0, 0, 0, 0, 0, 0, 0, 0, 0, 0, 0, 0] = .ok none ∧
    ∃ e, filterImage ratArith 0 (some (onesImage 6)) brokenList none 1 [] = .error e :=
  ⟨by decide +kernel, ⟨_, rfl⟩⟩

end CLF
