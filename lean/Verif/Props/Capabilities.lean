import Verif.Props.Registry
import Verif.Props.Csp
import Verif.Props.Spi
import Verif.Props.Ctl
import Verif.Props.Nodes

/-!
# C111: what the format classes say they can do
-/

set_option linter.unusedSectionVars false

namespace CLF

variable {K : Type} [Field K] [LinearOrder K] [IsStrictOrderedRing K] [FloorRing K]

theorem mem_capabilities (c : LutClass K) (k : Capability) (e : Txt) :
    k ∈ c.capabilities e ↔ ∃ f ∈ c.formats, k ∈ f.2 ∧ (e = [] ∨ lower f.1 = lower e) := by
  unfold LutClass.capabilities
  split
  · rename_i h
    simp only [List.mem_flatten, List.mem_map]
    constructor
    · rintro ⟨_, ⟨f, hf, rfl⟩, hk⟩
      exact ⟨f, hf, hk, .inl h⟩
    · rintro ⟨f, hf, hk, -⟩
      exact ⟨_, ⟨f, hf, rfl⟩, hk⟩
  · rename_i h
    simp only [List.mem_flatten, List.mem_map, List.mem_filter, decide_eq_true_eq]
    constructor
    · rintro ⟨_, ⟨f, ⟨hf, he⟩, rfl⟩, hk⟩
      exact ⟨f, hf, hk, .inr he⟩
    · rintro ⟨f, hf, hk, he⟩
      exact ⟨_, ⟨f, ⟨hf, he.resolve_left h⟩, rfl⟩, hk⟩

/-- C111: asked without an extension, a class says what it can do with some extension of its
own. -/
theorem C111_any (c : LutClass K) (k : Capability) :
    c.can k = true ↔ ∃ e ∈ c.formats.map Prod.fst, c.can k e = true := by
  unfold LutClass.can
  rw [decide_eq_true_eq, mem_capabilities]
  simp only [decide_eq_true_eq, mem_capabilities, List.mem_map]
  constructor
  · rintro ⟨f, hf, hk, -⟩
    exact ⟨f.1, ⟨f, hf, rfl⟩, f, hf, hk, .inr rfl⟩
  · rintro ⟨e, -, f, hf, hk, -⟩
    exact ⟨f, hf, hk, .inl trivial⟩

/-- C111: for an extension, a class says what is listed for it, whatever its letter case. -/
theorem C111_extension (c : LutClass K) (k : Capability) (e : Txt) (he : e ≠ []) :
    c.can k e = true ↔ ∃ f ∈ c.formats, k ∈ f.2 ∧ lower f.1 = lower e := by
  simp only [LutClass.can, decide_eq_true_eq, mem_capabilities, he, false_or]

/-- C111: a shipped class says it can write in a style if and only if its `write` never
answers `False` for the style. -/
theorem C111_write (A : Arith K) (compat : ℕ) (fmt : Flt K → Txt) (c : LutClass K)
    (hc : c ∈ shippedFormats A compat fmt) (k : Capability) (hk : k ≠ .read) :
    c.can k = true ↔ ∀ ns a, c.write ns k a ≠ .ok none := by
  have text : ∀ t : Py Txt, wroteText t ≠ .ok none := by
    intro t h
    cases t <;> cases h
  have bind : ∀ {α : Type} (x : Py α) (f : α → Py (Option Written)), (∀ a, f a ≠ .ok none) →
      (x >>= f) ≠ .ok none := by
    intro α x f hf h
    cases x with
    | error e => cases h
    | ok a => exact hf a h
  let a0 : WriteArgs K := ⟨0, 0, 0, 0, 0, .fin 0, .fin 1, ("linear", .fin 0, .fin 1), ("linear", .fin 0, .fin 1)⟩
  simp only [shippedFormats, List.mem_cons, List.not_mem_nil, or_false] at hc
  rcases hc with rfl | rfl | rfl | rfl
  · cases k with
    | read => exact absurd rfl hk
    | write1d => exact iff_of_true rfl fun ns a => bind _ _ fun s => text _
    | write3d => exact iff_of_true rfl fun ns a => bind _ _ fun s => text _
    | write1d3d1d => exact iff_of_false (Bool.eq_false_iff.mp rfl) fun h => h [] a0 rfl
  · cases k with
    | read => exact absurd rfl hk
    | write1d => exact iff_of_true rfl fun ns a => bind _ _ fun s => text _
    | write3d => exact iff_of_true rfl fun ns a => bind _ _ fun s => text _
    | write1d3d1d => exact iff_of_true rfl fun ns a => bind _ _ fun s => text _
  · cases k with
    | read => exact absurd rfl hk
    | write1d => exact iff_of_false (Bool.eq_false_iff.mp rfl) fun h => h [] a0 rfl
    | write3d => exact iff_of_false (Bool.eq_false_iff.mp rfl) fun h => h [] a0 rfl
    | write1d3d1d =>
      refine iff_of_true rfl fun ns a => bind _ _ fun s h => ?_
      change (writeClf compat s a.resIn (a.resCube, a.resCube, a.resCube)).map _ = _ at h
      cases hw : writeClf compat s a.resIn (a.resCube, a.resCube, a.resCube) with
      | error e => rw [hw] at h; cases h
      | ok f => rw [hw] at h; cases h
  · cases k with
    | read => exact absurd rfl hk
    | write1d => exact iff_of_true rfl fun ns a => bind _ _ fun s => text _
    | write3d => exact iff_of_true rfl fun ns a => bind _ _ fun s => text _
    | write1d3d1d => exact iff_of_false (Bool.eq_false_iff.mp rfl) fun h => h [] a0 rfl

/-- C111: a shipped class says it can read if and only if it reads some file. -/
theorem C111_read (A : Arith K) (compat : ℕ) (fmt : Flt K → Txt) (c : LutClass K)
    (hc : c ∈ shippedFormats A compat fmt) :
    c.can .read = true ↔ ∃ files path a n ns, c.read files path a = .ok (n :: ns) := by
  obtain ⟨t, -, ht⟩ := readCsp3d_table (K := K) (.fin 0) (.fin 1) 1 (by decide) fun _ _ _ _ => .fin 0
  simp only [shippedFormats, List.mem_cons, List.not_mem_nil, or_false] at hc
  rcases hc with rfl | rfl | rfl | rfl
  · obtain ⟨u, n, -, -, hu, -⟩ := C54_table_partial (K := K) numText_str12 (a := 1) (b := 1) (c := 1)
      (fun _ _ _ _ => .fin 0) (.str "linear")
    refine iff_of_true rfl ⟨fun _ => .ok u, "a.spi3d".toList, {}, .leaf .lut3d n, [], ?_⟩
    have e : extensionOf "a.spi3d".toList = "spi3d".toList := by decide +kernel
    unfold spiClass
    dsimp only
    rw [e, if_neg (by decide), if_pos rfl]
    exact hu
  · exact iff_of_true rfl ⟨fun _ => .ok t, [], {}, _, _, ht⟩
  · exact iff_of_false (Bool.eq_false_iff.mp rfl) (by rintro ⟨_, _, _, _, _, h⟩; cases h)
  · exact iff_of_false (Bool.eq_false_iff.mp rfl) (by rintro ⟨_, _, _, _, _, h⟩; cases h)

/-- The answers of the SPI class. -/
example : (spiClass ratArith 2 pyStr).can .write3d = true ∧
    (spiClass ratArith 2 pyStr).can .write3d "SPI3D".toList = true ∧
    (spiClass ratArith 2 pyStr).can .write3d "spi1d".toList = false ∧
    (spiClass ratArith 2 pyStr).can .write1d3d1d = false := by decide +kernel

end CLF
