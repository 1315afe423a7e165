import Verif.Model.Csp
import Verif.Lemmas.Spi
import Verif.Lemmas.Sampling

/-! Lemmas about CSP files. -/

set_option linter.unusedSectionVars false

namespace CLF

variable {K : Type} [Field K] [LinearOrder K] [IsStrictOrderedRing K] [FloorRing K]

/-! ### Tables of equally long pieces -/

theorem flatMap_length {α : Type} (G : ℕ → List α) (w : ℕ) (hG : ∀ q, (G q).length = w) (l : List ℕ) :
    (l.flatMap G).length = l.length * w := by
  induction l with
  | nil => simp
  | cons a l ih => rw [List.flatMap_cons, List.length_append, ih, hG, List.length_cons]; ring

theorem splice_flat {α : Type} (N : ℕ) (G : ℕ → List α) (hG : ∀ q, (G q).length = 3) (i : ℕ)
    (hi : i < N) (v : List α) :
    listSplice ((List.range N).flatMap G) (i * 3) (i * 3 + 3) v
      = (List.range N).flatMap fun q => if q = i then v else G q := by
  have hr : List.range N = List.range i ++ i :: List.range' (i + 1) (N - i - 1) := by
    rw [List.range_eq_range', List.range_eq_range', ← List.range'_succ,
      show N - i - 1 + 1 = N - i by omega]
    have := List.range'_append (s := 0) (m := i) (n := N - i) (step := 1)
    rw [← show i + (N - i) = N by omega, ← this]
    simp
  have hl := flatMap_length G 3 hG (List.range i)
  rw [List.length_range] at hl
  unfold listSplice
  rw [hr, List.flatMap_append, List.flatMap_cons, List.flatMap_append, List.flatMap_cons, ← hl,
    List.take_left, Nat.max_eq_right (by omega), List.drop_append, Nat.add_sub_cancel_left,
    List.drop_of_length_le (by omega), List.nil_append, List.drop_append, hG i,
    Nat.sub_self, List.drop_zero, List.drop_of_length_le (by rw [hG]), List.nil_append]
  have e1 : ((List.range i).flatMap fun q => if q = i then v else G q) = (List.range i).flatMap G := by
    rw [List.flatMap_def, List.flatMap_def]
    congr 1
    refine List.map_congr_left fun q hq => ?_
    rw [if_neg (by have := List.mem_range.mp hq; omega)]
  have e2 : ((List.range' (i + 1) (N - i - 1)).flatMap fun q => if q = i then v else G q)
      = (List.range' (i + 1) (N - i - 1)).flatMap G := by
    rw [List.flatMap_def, List.flatMap_def]
    congr 1
    refine List.map_congr_left fun q hq => ?_
    rw [if_neg (by have := (List.mem_range'_1.mp hq).1; omega)]
  rw [e1, e2]
  simp

theorem range_mul_map {α : Type} (a b : ℕ) (F : ℕ → α) :
    (List.range a).flatMap (fun i => (List.range b).map fun j => F (i * b + j))
      = (List.range (a * b)).map F := by
  induction a with
  | zero => simp
  | succ a ih =>
    rw [List.range_succ, List.flatMap_append, ih, Nat.succ_mul, List.range_add, List.map_append]
    simp [Function.comp_def]

/-! ### The table loop -/

/-- Entries that go to their own places, each read as three numbers, fill the table. -/
theorem cspLoop_places (place : ℕ → Py ℕ) (σ τ : ℕ → ℕ) (N : ℕ)
    (hplace : ∀ k < N, place k = .ok (σ k)) (hσ : ∀ k < N, σ k < N ∧ τ (σ k) = k)
    (hτ : ∀ q < N, σ (τ q) = q ∧ τ q < N) (text : ℕ → Txt) (c : ℕ → List (Flt K))
    (hc : ∀ k < N, (c k).length = 3)
    (htext : ∀ k < N, (words (text k)).mapM (readFlt (K := K)) = .ok (c k)) (rest : List Txt)
    (d k : ℕ) (hk : k + d = N) :
    cspLoop place k ((List.range N).flatMap fun q => if τ q < k then c (τ q) else List.replicate 3 (.fin 0))
        ((List.range' k d).map text ++ rest)
      = cspLoop place N ((List.range N).flatMap fun q => c (τ q)) rest := by
  induction d generalizing k with
  | zero =>
    obtain rfl : k = N := by omega
    simp only [List.range'_zero, List.map_nil, List.nil_append]
    congr 1
    rw [List.flatMap_def, List.flatMap_def]
    congr 1
    refine List.map_congr_left fun q hq => ?_
    rw [if_pos (hτ q (List.mem_range.mp hq)).2]
  | succ d ih =>
    have hkN : k < N := by omega
    rw [List.range'_succ, List.map_cons, List.cons_append, cspLoop, hplace k hkN, py_ok_bind,
      htext k hkN, py_ok_bind, if_pos (hc k hkN), ← ih (k + 1) (by omega)]
    congr 1
    have hcap : ((List.range N).flatMap fun q => if τ q < k then c (τ q) else List.replicate 3 (.fin 0))
        = (List.range N).flatMap fun q =>
          if q < N ∧ τ q < k then c (τ q) else List.replicate 3 (.fin (0 : K)) := by
      rw [List.flatMap_def, List.flatMap_def]
      congr 1
      refine List.map_congr_left fun q hq => ?_
      simp [List.mem_range.mp hq]
    rw [hcap, splice_flat N _ _ _ (hσ k hkN).1, List.flatMap_def, List.flatMap_def]
    · congr 1
      refine List.map_congr_left fun q hq => ?_
      have hq := List.mem_range.mp hq
      by_cases h : q = σ k
      · subst h
        rw [if_pos rfl, (hσ k hkN).2, if_pos (by omega)]
      · have : τ q ≠ k := by
          intro e
          apply h
          rw [← e, (hτ q hq).1]
        rw [if_neg h]
        by_cases h1 : τ q < k
        · rw [if_pos ⟨hq, h1⟩, if_pos (by omega)]
        · rw [if_neg (by simp [h1]), if_neg (by omega)]
    · intro q
      split_ifs with h
      · exact hc _ (by omega)
      · simp

theorem replicate_flat (N : ℕ) (τ : ℕ → ℕ) (c : ℕ → List (Flt K)) :
    List.replicate (N * 3) (.fin (0 : K))
      = (List.range N).flatMap fun q => if τ q < 0 then c (τ q) else List.replicate 3 (.fin 0) := by
  simp only [Nat.not_lt_zero, if_false]
  induction N with
  | zero => simp
  | succ N ih =>
    rw [List.range_succ, List.flatMap_append, ← ih, Nat.succ_mul, List.replicate_add]
    simp

/-! ### The order of a cube -/

/-- The digits of a number in base `n` in reverse. -/
def flip3 (n k : ℕ) : ℕ := (k % n * n + k / n % n) * n + k / (n * n)

theorem flip3_digits (n r g b : ℕ) (hr : r < n) (hg : g < n) :
    flip3 n (r + n * (g + n * b)) = (r * n + g) * n + b := by
  have hn : 0 < n := by omega
  have e1 : (r + n * (g + n * b)) / n = g + n * b := by
    rw [Nat.add_mul_div_left _ _ hn, Nat.div_eq_of_lt hr, Nat.zero_add]
  unfold flip3
  rw [← Nat.div_div_eq_div_mul, e1, Nat.add_mul_mod_self_left, Nat.mod_eq_of_lt hr,
    Nat.add_mul_mod_self_left, Nat.mod_eq_of_lt hg, Nat.add_mul_div_left _ _ hn,
    Nat.div_eq_of_lt hg, Nat.zero_add]

theorem digits3 (n k : ℕ) (hk : k < n * n * n) : ∃ r g b, r < n ∧ g < n ∧ b < n ∧
    k = r + n * (g + n * b) := by
  have hn : 0 < n := by
    rcases Nat.eq_zero_or_pos n with rfl | h
    · simp at hk
    · exact h
  refine ⟨k % n, k / n % n, k / n / n, Nat.mod_lt _ hn, Nat.mod_lt _ hn, ?_, ?_⟩
  · rw [Nat.div_div_eq_div_mul]
    exact Nat.div_lt_of_lt_mul hk
  · rw [Nat.mod_add_div, Nat.mod_add_div]

theorem flip3_lt (n k : ℕ) (hk : k < n * n * n) : flip3 n k < n * n * n ∧ flip3 n (flip3 n k) = k := by
  obtain ⟨r, g, b, hr, hg, hb, rfl⟩ := digits3 n k hk
  rw [flip3_digits n r g b hr hg]
  have e : (r * n + g) * n + b = b + n * (g + n * r) := by ring
  constructor
  · have h1 : r * n + g + 1 ≤ n * n := by nlinarith
    nlinarith
  · rw [e, flip3_digits n b g r hb hg]
    ring

theorem cspIndex3_eq (n k : ℕ) (hn : 0 < n) : cspIndex3 n n k = .ok (flip3 n k) := by
  have h1 : pyDivNat k n = .ok (k / n) := by simp [pyDivNat, hn.ne']
  have h2 : pyDivNat k (n * n) = .ok (k / (n * n)) := by simp [pyDivNat, hn.ne']
  simp only [cspIndex3, hn.ne', if_false, h1, h2, py_ok_bind, py_pure]
  rfl

end CLF
