import Verif.Model.RoundedWrite
import Verif.Spec.Bake
import Verif.Spec.Files
import Verif.Lemmas.RoundedAlpha
import Verif.Props.RoundedTree
import Verif.Props.RoundedSampling
import Verif.Props.Sampling
import Verif.Props.Precision

/-!
# Sampled lists: lemmas
-/

set_option linter.unusedSectionVars false

namespace CLF

variable {K : Type} [Field K] [LinearOrder K] [IsStrictOrderedRing K] [FloorRing K]

/-! ## One pixel without a stride -/

theorem leafR_zero (E : Evaluator K) (compat : ℕ) (k : Kind K) (b : Base K) (v : List (Flt K)) :
    leafProcessR E compat k b v 0 = leafProcessR E compat k b v v.length := by
  cases k <;> simp only [leafProcessR, matrixProcessR, lut1dProcessR, lut3dProcessR, ecProcessR,
    gammaProcessR, logProcessR, viewLoop, pixelLoop_zero v]
  case cdl cc w =>
    unfold cdlProcessR
    by_cases h : v.length = 0 <;> simp [h]

theorem Implements.colours {E : Evaluator K} {n : Node K} {s : Spec.Stage K} (h : Implements E n s) : Spec.Colours n := by
  cases h with
  | matrix h =>
    refine .leaf fun a d ha hd => ?_
    obtain ⟨a', rest, h1, h2, -⟩ := h.array
    rw [h1] at ha
    cases ha
    rw [h2] at hd
    cases hd
    exact le_rfl
  | affine h =>
    refine .leaf fun a d ha hd => ?_
    obtain ⟨a', rest, h1, h2, -⟩ := h.array
    rw [h1] at ha
    cases ha
    rw [h2] at hd
    cases hd
    exact le_rfl
  | @map k b D ε Φ hk =>
    cases k with
    | matrix => exact absurd rfl hk
    | _ => exact .leaf trivial
  | _ => exact .leaf trivial

theorem Implements.isLeaf {E : Evaluator K} {n : Node K} {s : Spec.Stage K} (h : Implements E n s) : ∃ k b, n = .leaf k b := by
  cases h <;> exact ⟨_, _, rfl⟩

theorem agree_length {P : Prop} {v : List (Flt K)} {x y : Py (Res K)} {r : Res K} (h : Agree 3 P [v] x y) (hx : x = .ok r) : r.out.length = 3 := by
  rcases h with ⟨e, h, -⟩ | ⟨outs, q, q', h1, h2, h3, h4, h5, -⟩
  · rw [h] at hx; cases hx
  · rw [h3] at hx
    cases hx
    obtain ⟨o, rfl⟩ := List.length_eq_one_iff.mp (by simpa using h1)
    rw [h5]
    simpa using h2

/-- A list evaluated without a stride is one evaluated at a stride of three. -/
theorem carries_zero {E : Evaluator K} {compat : ℕ} {g : Bool} {prev : Option Depth} {ns : List (Node K)} {ss : List (Spec.Stage K)}
    (h : Carries E compat g prev ns ss) : ∀ r : Res K, r.out.length = 3 →
      runNodesR E compat 0 g prev ns r = runNodesR E compat 3 g prev ns r ∧
      ∀ r', runNodesR E compat 3 g prev ns r = .ok r' → r'.out.length = 3 := by
  induction h with
  | nil =>
    intro r hr
    rw [runNodesR, runNodesR]
    exact ⟨rfl, fun r' h => by cases h; exact hr⟩
  | @node g prev n ns s ss ha hn h ih =>
    intro r hr
    obtain ⟨k, b, hk⟩ := hn.isLeaf
    have e : n.processR E compat 0 r.out = n.processR E compat 3 r.out := by
      rw [hk, Node.processR, Node.processR, leafR_zero, hr]
    unfold runNodesR
    simp only [active_run ha, if_true, e]
    cases hp : n.processR E compat 3 r.out with
    | error err => exact ⟨rfl, fun r' h => by cases h⟩
    | ok q =>
      have hl : q.out.length = 3 := by
        have := node_agree E compat le_rfl n hn.colours [r.out] (by simpa using hr)
        simp only [List.flatten_cons, List.flatten_nil, List.append_nil] at this
        exact agree_length this hp
      simp only [py_ok_bind, py_pure]
      exact ih (r.step q) hl
  | @group g prev b cs ns ss ts ha hc h ihc ih =>
    intro r hr
    have e : (Node.group b cs).processR E compat 0 r.out = (Node.group b cs).processR E compat 3 r.out := by
      rw [Node.processR, Node.processR]
      exact (ihc ⟨r.out, r.out, true⟩ hr).1
    unfold runNodesR
    simp only [active_run ha, if_true, e]
    cases hp : (Node.group b cs).processR E compat 3 r.out with
    | error err => exact ⟨rfl, fun r' h => by cases h⟩
    | ok q =>
      rw [Node.processR] at hp
      simp only [py_ok_bind, py_pure]
      exact ih (r.step q) ((ihc ⟨r.out, r.out, true⟩ hr).2 q hp)
  | @ref g prev b i cs ns ss ts ha hc h ihc ih =>
    intro r hr
    have hcl : (r.out.map (E.rounding single)).length = 3 := by simpa using hr
    have e : (Node.ref b i cs).processR E compat 0 r.out = (Node.ref b i cs).processR E compat 3 r.out := by
      rw [Node.processR, Node.processR]
      simp only [(ihc ⟨r.out.map (E.rounding single), r.out.map (E.rounding single), true⟩ hcl).1]
    unfold runNodesR
    simp only [active_run ha, if_true, e]
    cases hp : (Node.ref b i cs).processR E compat 3 r.out with
    | error err => exact ⟨rfl, fun r' h => by cases h⟩
    | ok q =>
      rw [Node.processR] at hp
      obtain ⟨q', h1, h2⟩ := py_bind_eq_ok.mp hp
      cases h2
      simp only [py_ok_bind, py_pure]
      exact ih _ ((ihc ⟨r.out.map (E.rounding single), r.out.map (E.rounding single), true⟩ hcl).2 q' h1)
  | @missing g prev b i ns ss ha h ih =>
    intro r hr
    unfold runNodesR
    simp only [active_run ha, if_true]
    rw [Node.processR, Node.processR]
    simp only [py_ok_bind, py_pure]
    exact ih _ hr
  | @skip g prev n ns ss ha hd h ih =>
    intro r hr
    unfold runNodesR
    simp only [inactive_run ha]
    rcases hd with rfl | rfl | ⟨n', ns', rfl, rfl⟩
    · exact ih r hr
    · cases prev <;> exact ih r hr
    · simp only [ne_eq, not_true_eq_false, if_false]
      exact ih r hr
  | @adapt g n n' ns ss d1 d2 D ha hd hD h ih =>
    intro r hr
    unfold runNodesR
    simp only [inactive_run ha, hd.1]
    have hne : (some d1 : Option AVal) ≠ some d2 := fun h => hd.2 (Option.some.inj h)
    simp only [ne_eq, hne, not_false_eq_true, if_true]
    cases hp : rangeProcessR E.rounding (adapterBase (some d1) (some d2)) r.out with
    | error err => exact ⟨rfl, fun r' h => by cases h⟩
    | ok q =>
      have hl : q.out.length = 3 := by
        have := range_agree E.rounding (adapterBase (some d1) (some d2)) le_rfl [r.out] (by simpa using hr)
        simp only [List.flatten_cons, List.flatten_nil, List.append_nil] at this
        exact agree_length this hp
      simp only [Bool.false_eq_true, if_false, py_ok_bind, py_pure]
      exact ih (r.step q) hl

theorem list_zero {E : Evaluator K} {compat : ℕ} {ns : List (Node K)} {ss : List (Spec.Stage K)} (h : Carries E compat false none ns ss)
    {v : List (Flt K)} (hv : v.length = 3) : processListR E compat ns v 0 = processListR E compat ns v 3 := by
  unfold processListR
  simp only
  rw [(carries_zero h ⟨v.map (E.rounding single), v.map (E.rounding single), true⟩ (by simpa using hv)).1]

/-! ## Slopes -/

theorem Carries.wf {E : Evaluator K} {compat : ℕ} {g : Bool} {prev : Option Depth} {ns : List (Node K)} {ss : List (Spec.Stage K)}
    (h : Carries E compat g prev ns ss) : ∀ s ∈ ss, StageOk s := by
  induction h with
  | nil => simp
  | node ha hn h ih => exact List.forall_mem_cons.mpr ⟨hn.wf, ih⟩
  | group ha hc h ihc ih => intro s hs; exact (List.mem_append.mp hs).elim (ihc s) (ih s)
  | ref ha hc h ihc ih => intro s hs; exact (List.mem_append.mp hs).elim (ihc s) (ih s)
  | missing ha h ih => exact ih
  | skip ha hd h ih => exact ih
  | adapt ha hd hD h ih => exact List.forall_mem_cons.mpr ⟨⟨fullScale_pos _, one_le_fullScale _, by linarith [hD.1], le_rfl⟩, ih⟩

theorem chain_slope {ss : List (Spec.Stage K)} {B l : K} (h : Spec.Slope ss B l) (ok : ∀ s ∈ ss, StageOk s) :
    ∀ {d : K} {u v : Fin 3 → K}, Off d u v → Off (l * d) (Spec.evalChain ss u) (Spec.evalChain ss v) := by
  induction h with
  | nil => intro d u v h; rw [one_mul]; exact h
  | cons hg hs ih =>
    intro d u v h
    rw [mul_assoc]
    exact ih (fun s hs' => ok s (List.mem_cons_of_mem _ hs')) (stage_lipschitz hg (ok _ List.mem_cons_self) h)

theorem gentle_of_slope {ss : List (Spec.Stage K)} {B l : K} (h : Spec.Slope ss B l) (ok : ∀ s ∈ ss, StageOk s) : Spec.Gentle (Spec.evalChain ss) l :=
  fun _ _ _ _ _ huv => chain_slope h ok huv

/-! ## Polygons through samples -/

theorem unitClamp_mem (x : K) : 0 ≤ Spec.unitClamp x ∧ Spec.unitClamp x ≤ 1 :=
  ⟨le_min zero_le_one (le_max_left _ _), min_le_left _ _⟩

theorem polyline_near {m : ℕ} {f g : Fin (m + 1) → K} {d : K} (h : ∀ k, |f k - g k| ≤ d) (x : K) : |Spec.polyline f x - Spec.polyline g x| ≤ d := by
  rw [polyline_eq, polyline_eq]
  exact lerpRow_near h _

/-- The polygon through samples of a curve of slope `l`. -/
theorem polyline_samples {m : ℕ} (hm : 0 < m) {φ : K → K} {l : K} (hl : ∀ x y, 0 ≤ x → x ≤ 1 → 0 ≤ y → y ≤ 1 → |φ x - φ y| ≤ l * |x - y|) (x : K) :
    |Spec.polyline (fun k : Fin (m + 1) => φ ((k : ℕ) / m)) x - φ (Spec.unitClamp x)| ≤ l / (2 * m) := by
  have hm' : (0 : K) < m := Nat.cast_pos.mpr hm
  have hl0 : 0 ≤ l := by
    have := (abs_nonneg _).trans (hl 0 1 le_rfl zero_le_one zero_le_one le_rfl)
    rwa [zero_sub, abs_neg, abs_one, mul_one] at this
  rw [polyline_eq]
  show |lerpRow _ (Spec.unitClamp x * m) - _| ≤ _
  obtain ⟨h0, h1⟩ := unitClamp_mem x
  generalize Spec.unitClamp x = c at *
  have hp : 0 ≤ c * m := by positivity
  obtain ⟨k, hk, hk0, hk1⟩ : ∃ k : ℕ, k + 1 ≤ m ∧ (k : K) ≤ c * m ∧ c * m ≤ (k + 1 : ℕ) := by
    by_cases hc : c * m < m
    · refine ⟨⌊c * m⌋₊, ?_, Nat.floor_le hp, by push_cast; exact (Nat.lt_floor_add_one _).le⟩
      have : ⌊c * m⌋₊ < m := (Nat.floor_lt hp).mpr hc
      omega
    · refine ⟨m - 1, by omega, ?_, ?_⟩
      · refine le_trans ?_ (not_lt.mp hc)
        exact_mod_cast Nat.sub_le m 1
      · rw [Nat.sub_add_cancel hm]
        exact mul_le_of_le_one_left hm'.le h1
  rw [lerpRow_between _ k hk hk0 hk1]
  simp only
  have a0 : 0 ≤ (k : K) / m := by positivity
  have a1 : (k : K) / m ≤ 1 := by rw [div_le_one hm']; exact_mod_cast (by omega : k ≤ m)
  have b0 : 0 ≤ ((k + 1 : ℕ) : K) / m := by positivity
  have b1 : ((k + 1 : ℕ) : K) / m ≤ 1 := by rw [div_le_one hm']; exact_mod_cast hk
  have ha := hl _ _ a0 a1 h0 h1
  have hb := hl _ _ b0 b1 h0 h1
  have ea : |(k : K) / m - c| = (c * m - k) / m := by
    rw [abs_sub_comm, abs_of_nonneg]
    · field_simp
    · rw [sub_nonneg, div_le_iff₀ hm']; exact hk0
  have eb : |((k + 1 : ℕ) : K) / m - c| = (1 - (c * m - k)) / m := by
    rw [abs_of_nonneg]
    · push_cast; field_simp; ring
    · rw [sub_nonneg, le_div_iff₀ hm']; exact hk1
  rw [ea] at ha
  rw [eb] at hb
  have t0 : 0 ≤ c * m - k := sub_nonneg.mpr hk0
  have t1 : c * m - k ≤ 1 := by push_cast at hk1; linarith
  generalize c * m - k = t at *
  generalize φ ((k : K) / m) = A at *
  generalize φ (((k + 1 : ℕ) : K) / m) = B at *
  generalize φ c = z at *
  have e : A + t * (B - A) - z = (1 - t) * (A - z) + t * (B - z) := by ring
  have hA : |(1 - t) * (A - z)| ≤ (1 - t) * (l * (t / m)) := by
    rw [abs_mul, abs_of_nonneg (by linarith : 0 ≤ 1 - t)]
    exact mul_le_mul_of_nonneg_left ha (by linarith)
  have hB : |t * (B - z)| ≤ t * (l * ((1 - t) / m)) := by
    rw [abs_mul, abs_of_nonneg t0]
    exact mul_le_mul_of_nonneg_left hb t0
  have hq : t * (1 - t) ≤ 1 / 4 := by nlinarith [sq_nonneg (2 * t - 1)]
  have hfin : (1 - t) * (l * (t / m)) + t * (l * ((1 - t) / m)) ≤ l / (2 * m) := by
    have e2 : (1 - t) * (l * (t / m)) + t * (l * ((1 - t) / m)) = (t * (1 - t)) * (2 * (l / m)) := by ring
    have e3 : l / (2 * m) = 1 / 4 * (2 * (l / m)) := by field_simp; ring
    rw [e2, e3]
    exact mul_le_mul_of_nonneg_right hq (by positivity)
  rw [show A + t * (B - A) - z = (1 - t) * (A - z) + t * (B - z) by ring]
  exact (abs_add_le _ _).trans ((add_le_add hA hB).trans hfin)

theorem gentle_close {F : (Fin 3 → K) → Fin 3 → K} {l : K} (h : Spec.Gentle F l) (i a : Fin 3) (u : Fin 3 → K) (hu : Spec.InCube u) (x y : K)
    (x0 : 0 ≤ x) (x1 : x ≤ 1) (y0 : 0 ≤ y) (y1 : y ≤ 1) : |F (Function.update u a x) i - F (Function.update u a y) i| ≤ l * |x - y| := by
  have mem : ∀ z, 0 ≤ z → z ≤ 1 → Spec.InCube (Function.update u a z) := by
    intro z z0 z1 j
    by_cases hj : j = a
    · subst hj; rw [Function.update_self]; exact ⟨z0, z1⟩
    · rw [Function.update_of_ne hj]; exact hu j
  refine h _ _ (mem x x0 x1) (mem y y0 y1) _ (fun j => ?_) i
  by_cases hj : j = a
  · subst hj; rw [Function.update_self, Function.update_self]
  · rw [Function.update_of_ne hj, Function.update_of_ne hj, sub_self, abs_zero]; exact abs_nonneg _

theorem cube_vec {x y z : K} (hx : 0 ≤ x ∧ x ≤ 1) (hy : 0 ≤ y ∧ y ≤ 1) (hz : 0 ≤ z ∧ z ≤ 1) : Spec.InCube ![x, y, z] := by
  intro i
  fin_cases i
  exacts [hx, hy, hz]

theorem unit_quot {m : ℕ} (hm : 0 < m) (k : Fin (m + 1)) : 0 ≤ ((k : ℕ) : K) / m ∧ ((k : ℕ) : K) / m ≤ 1 := by
  have hm' : (0 : K) < m := Nat.cast_pos.mpr hm
  refine ⟨by positivity, ?_⟩
  rw [div_le_one hm']
  exact_mod_cast (by have := k.2; omega : (k : ℕ) ≤ m)

/-- Trilinear interpolation in samples of a map of slope `l`. -/
theorem cube_samples {m : ℕ} (hm : 0 < m) {F : (Fin 3 → K) → Fin 3 → K} {l : K} (h : Spec.Gentle F l) (i : Fin 3) (v : Fin 3 → K) :
    |Spec.polyline (fun r : Fin (m + 1) => Spec.polyline (fun g : Fin (m + 1) => Spec.polyline (fun b : Fin (m + 1) =>
        F ![(r : ℕ) / m, (g : ℕ) / m, (b : ℕ) / m] i) (v 2)) (v 1)) (v 0) - F (fun a => Spec.unitClamp (v a)) i| ≤ 3 * (l / (2 * m)) := by
  have u0 := unitClamp_mem (v 0)
  have u1 := unitClamp_mem (v 1)
  have u2 := unitClamp_mem (v 2)
  have hb : ∀ r g : Fin (m + 1), |Spec.polyline (fun b : Fin (m + 1) => F ![(r : ℕ) / m, (g : ℕ) / m, (b : ℕ) / m] i) (v 2)
      - F ![(r : ℕ) / m, (g : ℕ) / m, Spec.unitClamp (v 2)] i| ≤ l / (2 * m) := fun r g =>
    polyline_samples hm (φ := fun x => F ![(r : ℕ) / m, (g : ℕ) / m, x] i) (fun x y x0 x1 y0 y1 => by
      have := gentle_close h i 2 ![(r : ℕ) / m, (g : ℕ) / m, 0] (cube_vec (unit_quot hm r) (unit_quot hm g) ⟨le_rfl, zero_le_one⟩) x y x0 x1 y0 y1
      have e : ∀ z, Function.update ![((r : ℕ) : K) / m, ((g : ℕ) : K) / m, 0] 2 z = ![((r : ℕ) : K) / m, ((g : ℕ) : K) / m, z] := by
        intro z; funext j; fin_cases j <;> rfl
      rwa [e, e] at this) _
  have hg : ∀ r : Fin (m + 1), |Spec.polyline (fun g : Fin (m + 1) => F ![(r : ℕ) / m, (g : ℕ) / m, Spec.unitClamp (v 2)] i) (v 1)
      - F ![(r : ℕ) / m, Spec.unitClamp (v 1), Spec.unitClamp (v 2)] i| ≤ l / (2 * m) := fun r =>
    polyline_samples hm (φ := fun x => F ![(r : ℕ) / m, x, Spec.unitClamp (v 2)] i) (fun x y x0 x1 y0 y1 => by
      have := gentle_close h i 1 ![(r : ℕ) / m, 0, Spec.unitClamp (v 2)] (cube_vec (unit_quot hm r) ⟨le_rfl, zero_le_one⟩ u2) x y x0 x1 y0 y1
      have e : ∀ z, Function.update ![((r : ℕ) : K) / m, 0, Spec.unitClamp (v 2)] 1 z = ![((r : ℕ) : K) / m, z, Spec.unitClamp (v 2)] := by
        intro z; funext j; fin_cases j <;> rfl
      rwa [e, e] at this) _
  have hr : |Spec.polyline (fun r : Fin (m + 1) => F ![(r : ℕ) / m, Spec.unitClamp (v 1), Spec.unitClamp (v 2)] i) (v 0)
      - F ![Spec.unitClamp (v 0), Spec.unitClamp (v 1), Spec.unitClamp (v 2)] i| ≤ l / (2 * m) :=
    polyline_samples hm (φ := fun x => F ![x, Spec.unitClamp (v 1), Spec.unitClamp (v 2)] i) (fun x y x0 x1 y0 y1 => by
      have := gentle_close h i 0 ![0, Spec.unitClamp (v 1), Spec.unitClamp (v 2)] (cube_vec ⟨le_rfl, zero_le_one⟩ u1 u2) x y x0 x1 y0 y1
      have e : ∀ z, Function.update ![0, Spec.unitClamp (v 1), Spec.unitClamp (v 2)] 0 z = ![z, Spec.unitClamp (v 1), Spec.unitClamp (v 2)] := by
        intro z; funext j; fin_cases j <;> rfl
      rwa [e, e] at this) _
  have n1 := polyline_near (fun r => polyline_near (hb r) (v 1)) (v 0)
  have n2 := polyline_near hg (v 0)
  have e : (fun a => Spec.unitClamp (v a)) = ![Spec.unitClamp (v 0), Spec.unitClamp (v 1), Spec.unitClamp (v 2)] := by
    funext j; fin_cases j <;> rfl
  rw [e]
  refine (abs_sub_le _ _ _).trans ((add_le_add n1 ((abs_sub_le _ _ _).trans (add_le_add n2 hr))).trans (le_of_eq ?_))
  ring

/-! ## Positions -/

/-- The `float32` number at which sample `k` of `0, …, m` over the unit interval is taken. -/
def samplePos (m k : ℕ) : K := single.near (double.near ((k : K) / m))

theorem unit_position {m k : ℕ} (hm : 0 < m) (hk : k ≤ m) :
    samplePointR ieee (m + 1) (.fin 0) (.fin (1 : K)) k = .ok (.fin (double.near ((k : K) / m))) ∧
      |double.near ((k : K) / m)| ≤ 1 ∧ 0 ≤ samplePos (K := K) m k ∧ samplePos (K := K) m k ≤ 1 ∧
      |samplePos m k - (k : K) / m| ≤ 1 / 2 ^ 23 := by
  have hm' : (0 : K) < m := Nat.cast_pos.mpr hm
  obtain ⟨e1, -⟩ := C131_unit (K := K) (n := m + 1) (by omega) k (by omega)
  obtain ⟨e2, t0, t1⟩ := unitPointR_fin (K := K) (n := m + 1) (by omega) k (by omega)
  have em : ((m + 1 : ℕ) : K) - 1 = m := by push_cast; ring
  rw [em] at e2 t0 t1
  rw [e1, e2]
  have q0 : 0 ≤ (k : K) / m := by positivity
  have q1 : (k : K) / m ≤ 1 := by rw [div_le_one hm']; exact_mod_cast hk
  refine ⟨rfl, by rw [abs_of_nonneg t0]; exact t1, Fmt.near_nonneg _ t0, ?_, ?_⟩
  · have := Fmt.near_mono single t1
    rwa [single_one] at this
  · have d1 := double_rounder.err ((k : K) / m)
    have d2 := single_rounder.err (double.near ((k : K) / m))
    rw [abs_of_nonneg q0] at d1
    rw [abs_of_nonneg t0] at d2
    unfold samplePos
    generalize (k : K) / m = q at *
    generalize double.near q = p at *
    have hμ : (2 : K) ^ (-150 : ℤ) ≤ 1 / 2 ^ 40 := by
      rw [one_div, ← zpow_natCast, ← zpow_neg]
      exact zpow_le_zpow_right₀ one_le_two (by norm_num)
    have hη := eta_le (K := K)
    generalize (2 : K) ^ (-1075 : ℤ) = η at *
    generalize (2 : K) ^ (-150 : ℤ) = μ at *
    have h1 : q * (1 / 2 ^ 53) ≤ 1 / 2 ^ 53 := mul_le_of_le_one_left (by positivity) q1
    have h2 : p * (1 / 2 ^ 24) ≤ 1 / 2 ^ 24 := mul_le_of_le_one_left (by positivity) t1
    have h3 := abs_sub_le (single.near p) p q
    have h4 : (1 : K) / 2 ^ 24 + 1 / 2 ^ 40 + 1 / 2 ^ 53 + 1 / 2 ^ 53 ≤ 1 / 2 ^ 23 := by norm_num
    linarith

/-! ## Loops -/

theorem sampleLoopR_rows {R : Rounding K} {n c : ℕ} {lo hi : Flt K} {f : List (Flt K) → Py (List (Flt K))} (P : ℕ → Flt K)
    (hP : ∀ k < n, samplePointR R n lo hi k = .ok (P k)) (V : Fin n → Fin c → Flt K) (hV : ∀ k : Fin n, f [P k, P k, P k] = .ok (List.ofFn (V k))) :
    sampleLoopR R n lo hi f = .ok (Spec.rowMajor V) := by
  unfold sampleLoopR
  have := range_mapM_ofFn (n := n) (fun i => do let v ← samplePointR R n lo hi i; f [v, v, v]) (fun k => List.ofFn (V k)) fun k => by
    rw [hP k k.2, py_ok_bind, hV]
  rw [this]
  rfl

theorem cubeLoopR_eq (R : Rounding K) (res : ℕ × ℕ × ℕ) (lo hi : Flt K) (f : List (Flt K) → Py (List (Flt K))) :
    cubeLoopR R res lo hi f = (triples res).foldlM (fun s t => do
        let x ← samplePointR R res.1 lo hi t.1
        let y ← samplePointR R res.2.1 lo hi t.2.1
        let z ← samplePointR R res.2.2 lo hi t.2.2
        let v ← f [x, y, z]
        cubeSet s t.1 t.2.1 t.2.2 v)
      (Spec.cubeOf res.2.2 res.2.1 res.1 fun _ _ _ => [.fin 0, .fin 0, .fin 0]) := by
  unfold triples cubeLoopR
  rw [foldlM_flatMap]
  simp only [foldlM_flatMap, foldlM_map']
  congr 1
  unfold Spec.cubeOf
  simp

theorem cubeLoopR_cube {R : Rounding K} {n : ℕ} {lo hi : Flt K} {f : List (Flt K) → Py (List (Flt K))} (P : ℕ → Flt K)
    (hP : ∀ k < n, samplePointR R n lo hi k = .ok (P k)) (V : Fin n → Fin n → Fin n → Fin 3 → Flt K)
    (hV : ∀ r g b : Fin n, f [P r, P g, P b] = .ok (List.ofFn (V r g b))) :
    cubeLoopR R (n, n, n) lo hi f = .ok (Spec.nested V) := by
  rw [cubeLoopR_eq]
  have hfill := fill_foldlM n n n (fun t => if h : t.1 < n ∧ t.2.1 < n ∧ t.2.2 < n then List.ofFn (V ⟨t.1, h.1⟩ ⟨t.2.1, h.2.1⟩ ⟨t.2.2, h.2.2⟩) else [])
      (fun s t => do
        let x ← samplePointR R n lo hi t.1
        let y ← samplePointR R n lo hi t.2.1
        let z ← samplePointR R n lo hi t.2.2
        let v ← f [x, y, z]
        cubeSet s t.1 t.2.1 t.2.2 v) (triples (n, n, n)) (by
      intro t ht F
      obtain ⟨h0, h1, h2⟩ := (mem_triples _ _).mp ht
      have hv := hV ⟨t.1, h0⟩ ⟨t.2.1, h1⟩ ⟨t.2.2, h2⟩
      simp only at hv
      simp only [hP _ h0, hP _ h1, hP _ h2, py_ok_bind, hv]
      rw [dif_pos ⟨h0, h1, h2⟩]
      exact cubeSet_cubeOf _ _ _ F t _) (fun _ _ _ => [.fin 0, .fin 0, .fin 0])
  refine (hfill.1 fun t ht => (mem_triples _ _).mp ht).trans ?_
  congr 1
  unfold Spec.cubeOf Spec.nested
  simp only [map_range_ofFn]
  congr 1; funext r; congr 1; funext g; congr 1; funext b
  have hm : ((r : ℕ), (g : ℕ), (b : ℕ)) ∈ triples (n, n, n) := (mem_triples _ _).mpr ⟨r.2, g.2, b.2⟩
  rw [if_pos hm, dif_pos ⟨r.2, g.2, b.2⟩]

/-! ## The list at a sample -/

theorem list_at {E : Evaluator K} (hE : E.rounding = ieee) {compat : ℕ} {ns : List (Node K)} {ss : List (Spec.Stage K)}
    (h : Carries E compat false none ns ss) {e : K} (hb : Spec.Budget ss 1 0 e) (a : Fin 3 → K) (ha : ∀ i, |a i| ≤ 1) :
    ∃ w : Fin 3 → K, processListR E compat ns (Spec.fins a) 0 = .ok (Spec.fins w) ∧
      ∀ i, Spec.IsSingle (w i) ∧ |w i - Spec.evalChain ss (fun j => single.near (a j)) i| ≤ e := by
  have h120 : (1 : K) ≤ 2 ^ 120 := one_le_pow₀ one_le_two
  obtain ⟨c1, c2⟩ := copy_any [a] fun p hp i => by
    rw [List.mem_singleton.mp hp]
    exact (ha i).trans h120
  have hs : ∀ i, Spec.IsSingle (single.near (a i)) := fun i => (c2 a (by simp) i).1
  obtain ⟨g, h1, h2⟩ := C148_list E hE compat ns ss h 1 e hb [fun j => single.near (a j)] fun p hp i => by
    rw [List.mem_singleton.mp hp]
    refine ⟨hs i, ?_⟩
    have := Fmt.near_mono single (ha i)
    rwa [← Fmt.abs_near, single_one] at this
  have e1 : ∀ p : Fin 3 → K, Spec.rgb [p] = Spec.fins p := fun p => by simp [Spec.rgb]
  refine ⟨g fun j => single.near (a j), ?_, h2 _ (by simp)⟩
  rw [list_zero h (by simp [Spec.fins])]
  simp only [List.map_cons, List.map_nil, e1] at h1 c1
  rw [← h1]
  unfold processListR
  have c3 := copy_rgb [fun j => single.near (a j)] fun p hp i => by
    rw [List.mem_singleton.mp hp]; exact hs i
  rw [e1] at c3
  simp only [hE, c1, c3]

end CLF
