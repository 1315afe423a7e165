import Verif.Lemmas.IndexMapText
import Verif.Spec.Text
import Mathlib.Data.Rat.Floor

/-! # Property C49: index maps as text -/

set_option linter.unusedSectionVars false

namespace CLF

variable {K : Type} [Field K] [LinearOrder K] [IsStrictOrderedRing K] [FloorRing K]

/-- C49 is false: outputs are written as integers. -/
theorem C49_false : ∃ (m : IndexMap ℚ) (x : Xml), IndexMap.write m = .ok x ∧
    ∃ m', IndexMap.read (K := ℚ) ⟨2, [], []⟩ x.reparse = .ok m' ∧
      m.outputs = [.fin 0, .fin (1 / 2)] ∧ m'.outputs = [.fin 0, .fin 0] := by
  obtain ⟨x, hx⟩ := IndexMap.write_ok (⟨2, [.fin 0, .fin 1], [.fin 0, .fin (1 / 2)]⟩ : IndexMap ℚ)
    rfl (by simp)
  refine ⟨_, x, hx, _, IndexMap.read_write hx (by simp) _, rfl, ?_⟩
  decide +kernel

/-- C49 is false: the empty map is written but reading the document raises, as it has no
text. -/
theorem C49_empty_false (init : IndexMap K) (d : ℕ) :
    ∃ x, IndexMap.write (⟨d, [], []⟩ : IndexMap K) = .ok x ∧
      ∃ e, IndexMap.read init x.reparse = .error e := by
  refine ⟨_, rfl, .attributeError, ?_⟩
  show (parseNat (String.ofList (showNat d)).toList >>= fun dim => _) = _
  rw [String.toList_ofList, parseNat_showNat]
  rfl

/-- C49, for maps whose inputs have at most twelve significant digits (or are not finite)
and whose outputs are integers (missing: other maps, see `C49_changed_partial`): writing
succeeds and reading gives the same map. -/
theorem C49_partial (m : IndexMap K) (hl : m.inputs.length = m.outputs.length)
    (hne : m.inputs ≠ []) (hi : ∀ v ∈ m.inputs, ∀ r, v = .fin r → Spec.Digits12 r)
    (ho : ∀ v ∈ m.outputs, ∃ n : ℤ, v = .fin (n : K)) (init : IndexMap K) :
    ∃ x, m.write = .ok x ∧ IndexMap.read init x.reparse = .ok m := by
  obtain ⟨x, hx⟩ := m.write_ok hl fun v hv => ⟨_, (ho v hv).choose_spec⟩
  refine ⟨x, hx, ?_⟩
  rw [IndexMap.read_write hx hne init]
  have h1 : m.inputs.map (fun v => (dec12 (SFlt.ofFlt v)).toFlt) = m.inputs := by
    conv_rhs => rw [← List.map_id m.inputs]
    apply List.map_congr_left
    intro v hv
    cases v with
    | fin r => exact dec12_digits r (hi _ hv r rfl)
    | inf _ => rfl
    | nan => rfl
  have h2 : m.outputs.map (fun v => Flt.fin ((truncVal v : ℤ) : K)) = m.outputs := by
    conv_rhs => rw [← List.map_id m.outputs]
    apply List.map_congr_left
    intro v hv
    obtain ⟨n, rfl⟩ := ho v hv
    show Flt.fin _ = Flt.fin _
    congr 2
    show (if (n : K) < 0 then -⌊-(n : K)⌋ else ⌊(n : K)⌋) = n
    rw [← Int.cast_neg, Int.floor_intCast, Int.floor_intCast]
    split <;> omega
  rw [h1, h2]

/-- C49, what every other non-empty map becomes (so missing: equality): the inputs keep
twelve significant digits, the outputs are truncated towards zero. -/
theorem C49_changed_partial (m : IndexMap K) (hl : m.inputs.length = m.outputs.length)
    (hne : m.inputs ≠ []) (ho : ∀ v ∈ m.outputs, ∃ r, v = .fin r) (init : IndexMap K) :
    ∃ x m', m.write = .ok x ∧ IndexMap.read init x.reparse = .ok m' ∧
      m'.dimension = m.dimension ∧
      List.Forall₂ (fun v v' => (∀ r, v = .fin r → ∃ r', v' = .fin r' ∧
          |r' - r| ≤ 1 / 2 / 10 ^ 11 * |r|) ∧ ((∀ r, v ≠ .fin r) → v' = v)) m.inputs m'.inputs ∧
      List.Forall₂ (fun v v' => ∃ (r : K) (n : ℤ), v = .fin r ∧ v' = .fin (n : K) ∧
          |r - n| < 1 ∧ |(n : K)| ≤ |r|) m.outputs m'.outputs := by
  obtain ⟨x, hx⟩ := m.write_ok hl ho
  refine ⟨x, _, hx, IndexMap.read_write hx hne init, rfl, ?_, ?_⟩
  · generalize m.inputs = l
    induction l with
    | nil => exact .nil
    | cons v l ih =>
      refine .cons ⟨?_, ?_⟩ ih
      · rintro r rfl; exact dec12_near r
      · intro h
        cases v with
        | fin r => exact absurd rfl (h r)
        | inf _ => rfl
        | nan => rfl
  · clear hx hne hl
    generalize m.outputs = l at ho
    induction l with
    | nil => exact .nil
    | cons v l ih =>
      refine .cons ?_ (ih fun u hu => ho u (by simp [hu]))
      obtain ⟨r, rfl⟩ := ho v (by simp)
      refine ⟨r, _, rfl, rfl, ?_⟩
      show |r - ((if r < 0 then -⌊-r⌋ else ⌊r⌋ : ℤ) : K)| < 1 ∧ |((if r < 0 then -⌊-r⌋ else ⌊r⌋ : ℤ) : K)| ≤ _
      by_cases h : r < 0
      · rw [if_pos h]
        have h1 := Int.floor_le (-r)
        have h2 := Int.lt_floor_add_one (-r)
        have h3 : (0 : K) ≤ ⌊-r⌋ := by exact_mod_cast Int.floor_nonneg.mpr (by linarith)
        push_cast
        rw [abs_neg, abs_of_nonneg h3, abs_of_neg h, abs_lt]
        refine ⟨⟨by linarith, by linarith⟩, h1⟩
      · rw [if_neg h]
        have h1 := Int.floor_le r
        have h2 := Int.lt_floor_add_one r
        have h3 : (0 : K) ≤ ⌊r⌋ := by exact_mod_cast Int.floor_nonneg.mpr (not_lt.mp h)
        rw [abs_of_nonneg h3, abs_of_nonneg (not_lt.mp h), abs_lt]
        refine ⟨⟨by linarith, by linarith⟩, h1⟩

/-- A usual index map: decimals to integer indices. -/
example : ∃ x, IndexMap.write (⟨3, [.fin (-1 / 8), .fin (1 / 2), .inf false],
      [.fin 0, .fin 511, .fin 1023]⟩ : IndexMap ℚ) = .ok x ∧
    IndexMap.read (K := ℚ) ⟨0, [], []⟩ x.reparse
      = .ok ⟨3, [.fin (-1 / 8), .fin (1 / 2), .inf false], [.fin 0, .fin 511, .fin 1023]⟩ := by
  apply C49_partial (K := ℚ) _ rfl (by simp)
  · intro v hv r hr
    simp only [List.mem_cons, List.not_mem_nil, or_false] at hv
    rcases hv with rfl | rfl | rfl
    · obtain rfl := Flt.fin.inj hr
      exact ⟨125, -3, by norm_num, .inr (by norm_num)⟩
    · obtain rfl := Flt.fin.inj hr
      exact ⟨5, -1, by norm_num, .inl (by norm_num)⟩
    · cases hr
  · intro v hv
    simp only [List.mem_cons, List.not_mem_nil, or_false] at hv
    rcases hv with rfl | rfl | rfl
    exacts [⟨0, by norm_num⟩, ⟨511, by norm_num⟩, ⟨1023, by norm_num⟩]

end CLF
