import Verif.Lemmas.SingleText
import Verif.Lemmas.Str12
import Mathlib.Data.Rat.Floor

/-! # Properties C45–C48: arrays as text -/

set_option linter.unusedSectionVars false

namespace CLF

variable {K : Type} [Field K] [LinearOrder K] [IsStrictOrderedRing K] [FloorRing K]

/-! ### Helpers -/

theorem py_mapM_map' {α β γ : Type} (f : β → Py γ) (g : α → β) (l : List α) :
    (l.map g).mapM f = l.mapM fun a => f (g a) := by
  induction l with
  | nil => rfl
  | cons a l ih => rw [List.map_cons, py_mapM_cons, py_mapM_cons, ih]

theorem py_mapM_exists {α β : Type} (f : α → Py β) (l : List α)
    (h : ∀ a ∈ l, ∃ b, f a = .ok b) : ∃ r, l.mapM f = .ok r := by
  induction l with
  | nil => exact ⟨_, rfl⟩
  | cons a l ih =>
    obtain ⟨b, hb⟩ := h a (by simp)
    obtain ⟨r, hr⟩ := ih fun x hx => h x (by simp [hx])
    exact ⟨_, by rw [py_mapM_cons, hb, hr]; rfl⟩

theorem columnsOf_eq (dims : List ℕ) (c : ℕ) :
    columnsOf dims = .ok c ↔ Spec.rowLength dims = some c := by
  unfold columnsOf
  match dims with
  | [] => simp [Spec.rowLength, pyGet]
  | [_] => simp [Spec.rowLength, pyGet]
  | [_, b] => simp [Spec.rowLength, pyIdx]
  | [_, b, _] => simp [Spec.rowLength, pyGet]
  | [_, _, _, d] => simp [Spec.rowLength, pyIdx]
  | _ :: b :: _ :: _ :: _ :: _ => simp [Spec.rowLength, pyGet]

/-- A decimal row does not change when its values change without changing their
texts. -/
theorem writeRow_congr (compat : ℕ) (a b : SArr K) (hi : a.integers = b.integers)
    (hr : a.rawHalfs = b.rawHalfs) (he : a.floatEncoding = b.floatEncoding)
    (g : SFlt K → SFlt K) (xs : List (SFlt K))
    (hg : ∀ x ∈ xs, intCheck (g x) = intCheck x ∧ show9 (g x) = show9 x)
    (hd : writeEnc compat a.rawHalfs a.floatEncoding = .ok .decimal) :
    writeRow compat b (xs.map g) = writeRow compat a xs := by
  have h1 : (xs.map g).mapM intCheck = xs.mapM intCheck := by
    rw [py_mapM_map']
    exact py_mapM_congr fun x hx => (hg x hx).1
  have h2 : (xs.map g).mapM (writeToken .decimal) = xs.mapM (writeToken .decimal) := by
    rw [py_mapM_map']
    exact py_mapM_congr fun x hx => by simp [writeToken, (hg x hx).2]
  unfold writeRow
  rw [← hi, ← hr, ← he, hd, h1]
  simp only [py_ok_bind, h2]

theorem pySlice_map {α β : Type} (g : α → β) (l : List α) (i j : ℕ) :
    pySlice (l.map g) i j = (pySlice l i j).map g := by
  simp [pySlice, List.map_take, List.map_drop]

/-- Writing again gives the same element if the texts of the values did not change. -/
theorem write_stable (compat : ℕ) (a : SArr K) (x : Xml) (hraw : a.rawHalfs = false)
    (henc : a.floatEncoding = "string") (g : SFlt K → SFlt K)
    (hg : ∀ x ∈ a.values, intCheck (g x) = intCheck x ∧ show9 (g x) = show9 x)
    (hw : a.write compat = .ok x) :
    SArr.write compat ⟨a.dims, a.values.map g, a.integers, false, "string"⟩ = .ok x := by
  rw [← hw]
  unfold SArr.write
  simp only [List.length_map, henc]
  congr 1
  funext c
  congr 1
  funext rows
  congr 1
  apply py_mapM_congr
  intro n _
  rw [pySlice_map]
  refine writeRow_congr compat a
    ⟨a.dims, a.values.map g, a.integers, false, "string"⟩ rfl hraw henc g _ ?_ (by rw [hraw, henc]; rfl)
  intro v hv
  exact hg v (List.mem_of_mem_drop (List.mem_of_mem_take hv))

/-- Reading a decimal array whose rows are complete. -/
theorem read_decimal (compat : ℕ) (a : SArr K) (x : Xml) (c : ℕ) (hraw : a.rawHalfs = false)
    (henc : a.floatEncoding = "string") (hc : Spec.rowLength a.dims = some c)
    (hfull : c ∣ a.values.length) (hw : a.write compat = .ok x) (store : SFlt K → SFlt K) :
    SArr.read store ⟨[], [], a.integers, false, "string"⟩ x
      = .ok ⟨a.dims, a.values.map fun v => store (dec9 v), a.integers, false, "string"⟩ := by
  obtain ⟨c', hc', hc0, h⟩ := SArr.read_write hw store ⟨[], [], a.integers, false, "string"⟩
    hraw.symm rfl
  rw [columnsOf_eq, hc] at hc'
  obtain rfl := Option.some.inj hc'
  rw [h, Nat.div_mul_cancel hfull, List.take_length, hraw, henc]
  congr 2
  rw [if_neg]
  rintro ⟨-, h⟩
  revert h; decide

theorem forall₂_map {α β : Type} (R : α → β → Prop) (g : α → β) (l : List α)
    (h : ∀ x ∈ l, R x (g x)) : List.Forall₂ R l (l.map g) := by
  induction l with
  | nil => exact .nil
  | cons x l ih => exact .cons (h x (by simp)) (ih fun y hy => h y (by simp [hy]))

theorem intCheck_dec9 (x : SFlt K) : intCheck (dec9 x) = intCheck x := by cases x <;> rfl

/-! ### C48: completeness -/

/-- C48: what is read back is every value of the complete rows, each converted on its
own (by the same conversion `f`, which depends only on the encoding), in order, with
the dimensions. -/
theorem C48_rows (compat : ℕ) (store : SFlt K → SFlt K) (raw : Bool) (enc : String) :
    ∃ f : SFlt K → SFlt K, ∀ (a : SArr K) (x : Xml), a.rawHalfs = raw → a.floatEncoding = enc →
      a.write compat = .ok x → ∃ c, Spec.rowLength a.dims = some c ∧ 0 < c ∧
        ∃ enc' vs, SArr.read store ⟨[], [], a.integers, raw, "string"⟩ x
            = .ok ⟨a.dims, vs, a.integers, raw, enc'⟩ ∧
          vs = (a.values.take (a.values.length / c * c)).map f ∧
          (c ∣ a.values.length → vs = a.values.map f) ∧
          vs.length = a.values.length - a.values.length % c := by
  refine ⟨(readEnc raw enc).back store, ?_⟩
  intro a x hr he hw
  obtain ⟨c, hc, hc0, h⟩ := SArr.read_write hw store ⟨[], [], a.integers, raw, "string"⟩ hr.symm rfl
  refine ⟨c, (columnsOf_eq _ _).mp hc, Nat.pos_of_ne_zero hc0, _, _, h, by rw [hr, he], ?_, ?_⟩
  · intro hd
    rw [Nat.div_mul_cancel hd, List.take_length, hr, he]
  · have h1 := Nat.div_add_mod a.values.length c
    rw [Nat.mul_comm] at h1
    have h2 := Nat.div_mul_le_self a.values.length c
    rw [List.length_map, List.length_take]
    omega

/-- C48: with a row length that does not divide the number of values some are lost, and
nothing is raised. -/
theorem C48_lost (compat : ℕ) (store : SFlt K → SFlt K) (a : SArr K) (x : Xml) (c : ℕ)
    (hc : Spec.rowLength a.dims = some c) (hnd : ¬ c ∣ a.values.length)
    (hw : a.write compat = .ok x) :
    ∃ a', SArr.read store ⟨[], [], a.integers, a.rawHalfs, "string"⟩ x = .ok a' ∧
      a'.values.length < a.values.length := by
  obtain ⟨f, hf⟩ := C48_rows compat store a.rawHalfs a.floatEncoding
  obtain ⟨c', hc', h0, enc', vs, h1, -, -, h2⟩ := hf a x rfl rfl hw
  rw [hc] at hc'
  obtain rfl := Option.some.inj hc'
  refine ⟨_, h1, ?_⟩
  show vs.length < _
  rw [h2]
  have h3 : a.values.length % c ≠ 0 := fun h => hnd (Nat.dvd_of_mod_eq_zero h)
  have := Nat.mod_le a.values.length c
  omega

/-- C48: decimal writing succeeds for every list of values (of an array not marked as
integer), as soon as there is a row length. -/
theorem C48_writes (compat : ℕ) (a : SArr K) (c : ℕ) (hraw : a.rawHalfs = false)
    (henc : a.floatEncoding = "string") (hint : a.integers = false)
    (hc : Spec.rowLength a.dims = some c) (hc0 : 0 < c) : ∃ x, a.write compat = .ok x := by
  have hrow : ∀ xs : List (SFlt K), ∃ t, writeRow compat a xs = .ok t := by
    intro xs
    obtain ⟨ts, hts⟩ := py_mapM_exists (writeToken (K := K) .decimal) xs fun y _ => ⟨show9 y, rfl⟩
    unfold writeRow
    rw [hint, hraw, henc]
    simp only [Bool.false_eq_true, if_false, writeEnc, ne_eq, not_true_eq_false]
    simp only [py_ok_bind, hts]
    exact ⟨_, rfl⟩
  obtain ⟨ts, hts⟩ := py_mapM_exists (fun n =>
    writeRow compat a (pySlice a.values (n * c) ((n + 1) * c))) (List.range (a.values.length / c))
    fun n _ => hrow _
  unfold SArr.write
  rw [(columnsOf_eq _ _).mpr hc]
  simp only [py_ok_bind, pyDivNat, if_neg hc0.ne', hts]
  exact ⟨_, rfl⟩

/-- Four values in rows of three: one row is written, one value lost. -/
example : ∃ x, SArr.write (K := ℚ) 15 ⟨[1, 3], [.fin false 1, .fin true 2, .inf false,
    .fin false 4], false, false, "string"⟩ = .ok x ∧ ∃ a', SArr.read (K := ℚ) id ⟨[], [], false, false, "string"⟩ x
      = .ok a' ∧ a'.values.length < 4 := by
  obtain ⟨x, hx⟩ := C48_writes (K := ℚ) 15 ⟨[1, 3], [.fin false 1, .fin true 2, .inf false,
    .fin false 4], false, false, "string"⟩ 3 rfl rfl rfl rfl (by norm_num)
  exact ⟨x, hx, C48_lost (K := ℚ) 15 id ⟨[1, 3], [.fin false 1, .fin true 2, .inf false,
    .fin false 4], false, false, "string"⟩ x 3 rfl (by decide) hx⟩

/-! ### C45: decimals -/

/-- C45 is false: the parsed value is stored as a float32, so a value that is not one is
changed by much more. -/
theorem C45_false : ∃ a : SArr ℚ, ∃ x, SArr.write 0 a = .ok x ∧ ∃ v : SFlt ℚ,
    SArr.read (SFlt.round single) ⟨[], [], false, false, "string"⟩ x
      = .ok ⟨a.dims, [v], false, false, "string"⟩ ∧
    a.values = [.fin false 16777217] ∧ v = .fin false 16777216 := by
  obtain ⟨x, hx⟩ := C48_writes (K := ℚ) 0 ⟨[1, 1], [.fin false 16777217], false, false, "string"⟩ 1
    rfl rfl rfl rfl (by norm_num)
  refine ⟨_, x, hx, _, read_decimal 0 _ x 1 rfl rfl rfl (by simp) hx _, rfl, ?_⟩
  decide +kernel

/-- C45, without the float32 store (missing: the store, see `C45_single_partial` and
`C45_false`): every value comes back within `0.5e-9`, infinities and NaN as they are,
and the array read back is written as the same element. -/
theorem C45_exact_partial (compat : ℕ) (a : SArr K) (x : Xml) (c : ℕ) (hraw : a.rawHalfs = false)
    (henc : a.floatEncoding = "string") (hc : Spec.rowLength a.dims = some c)
    (hfull : c ∣ a.values.length) (hv : ∀ v ∈ a.values, Spec.Proper v)
    (hw : a.write compat = .ok x) :
    ∃ vs, SArr.read id ⟨[], [], a.integers, false, "string"⟩ x
        = .ok ⟨a.dims, vs, a.integers, false, "string"⟩ ∧
      List.Forall₂ (Spec.Close (1 / 2 / 10 ^ 9)) a.values vs ∧
      SArr.write compat ⟨a.dims, vs, a.integers, false, "string"⟩ = .ok x := by
  refine ⟨_, read_decimal compat a x c hraw henc hc hfull hw id, ?_, ?_⟩
  · apply forall₂_map
    intro v hv'
    cases v with
    | nan => rfl
    | inf s => rfl
    | fin s m =>
      obtain ⟨m', h1, h2, h3⟩ := dec9_near s m (hv _ hv')
      show Spec.Close _ _ (dec9 (.fin s m))
      rw [h1]
      exact ⟨rfl, by rw [abs_sub_comm]; exact h3⟩
  · refine write_stable compat a x hraw henc _ ?_ hw
    intro v _
    refine ⟨intCheck_dec9 v, ?_⟩
    rw [show9_eq, show9_eq]
    exact congrArg _ (core9_dec9 v)

/-- C45, with the float32 store, for arrays of float32 values (missing: other values,
and the bound is `1e-9` instead of `0.5e-9`): every value comes back within `1e-9` as a
float32, and is written with the same text. -/
theorem C45_single_partial (compat : ℕ) (a : SArr K) (x : Xml) (c : ℕ) (hraw : a.rawHalfs = false)
    (henc : a.floatEncoding = "string") (hc : Spec.rowLength a.dims = some c)
    (hfull : c ∣ a.values.length) (hv : ∀ v ∈ a.values, Spec.IsFloat 23 8 v)
    (hw : a.write compat = .ok x) :
    ∃ vs, SArr.read (SFlt.round single) ⟨[], [], a.integers, false, "string"⟩ x
        = .ok ⟨a.dims, vs, a.integers, false, "string"⟩ ∧
      List.Forall₂ (Spec.Close (1 / 10 ^ 9)) a.values vs ∧ (∀ v ∈ vs, Spec.IsFloat 23 8 v) ∧
      SArr.write compat ⟨a.dims, vs, a.integers, false, "string"⟩ = .ok x := by
  have key : ∀ v ∈ a.values, Spec.Close (1 / 10 ^ 9) v (SFlt.round single (dec9 v)) ∧
      Spec.IsFloat 23 8 (SFlt.round single (dec9 v)) ∧
      intCheck (SFlt.round single (dec9 v)) = intCheck v ∧
      show9 (SFlt.round single (dec9 v)) = show9 v := by
    intro v hv'
    have hf := hv v hv'
    cases v with
    | nan =>
      have h := SFlt.round_nan (K := K) single (by decide)
      show Spec.Close _ _ (SFlt.round single .nan) ∧ Spec.IsFloat _ _ (SFlt.round single .nan) ∧ _
      rw [h]
      exact ⟨rfl, hf, by show intCheck (SFlt.round single .nan) = _; rw [h],
        by show show9 (SFlt.round single .nan) = _; rw [h]⟩
    | inf s =>
      have h := SFlt.round_inf (K := K) single s
      show Spec.Close _ _ (SFlt.round single (.inf s)) ∧
        Spec.IsFloat _ _ (SFlt.round single (.inf s)) ∧ _
      rw [h]
      exact ⟨rfl, hf, by show intCheck (SFlt.round single (.inf s)) = _; rw [h],
        by show show9 (SFlt.round single (.inf s)) = _; rw [h]⟩
    | fin s m =>
      obtain ⟨c, hc, rfl⟩ := isFloat_fin single s m hf
      obtain ⟨p, hp, h1, h2, h3⟩ := single_back (K := K) s c hc
      rw [h1]
      refine ⟨⟨rfl, by rw [abs_sub_comm]; exact h3⟩, isFloat_mag single s p hp, rfl, ?_⟩
      rw [show9_eq, show9_eq, h2]
  refine ⟨_, read_decimal compat a x c hraw henc hc hfull hw _,
    forall₂_map _ _ _ fun v hv' => (key v hv').1, ?_, ?_⟩
  · intro v hv'
    obtain ⟨w, hw', rfl⟩ := List.mem_map.mp hv'
    exact (key w hw').2.1
  · exact write_stable compat a x hraw henc _ (fun v hv' => (key v hv').2.2) hw

/-- The hypotheses are met by a table with fractions, minus zero and an infinity. -/
example : ∃ x vs, SArr.read id ⟨[], [], false, false, "string"⟩ x
      = .ok ⟨[2, 2], vs, false, false, "string"⟩ ∧
    List.Forall₂ (Spec.Close (1 / 2 / 10 ^ 9))
      [.fin false (1 / 3 : ℚ), .fin true 0, .inf true, .fin true (22 / 7)] vs := by
  obtain ⟨x, hx⟩ := C48_writes (K := ℚ) 15 ⟨[2, 2], [.fin false (1 / 3), .fin true 0, .inf true,
    .fin true (22 / 7)], false, false, "string"⟩ 2 rfl rfl rfl rfl (by norm_num)
  obtain ⟨vs, h1, h2, -⟩ := C45_exact_partial 15 _ x 2 rfl rfl rfl (by decide)
    (by simp [Spec.Proper]; norm_num) hx
  exact ⟨x, vs, h1, h2⟩

/-- The float32 nearest to one third is a float32. -/
example : ∃ x vs, SArr.read (SFlt.round single) ⟨[], [], false, false, "string"⟩ x
      = .ok ⟨[1, 1], vs, false, false, "string"⟩ ∧
    List.Forall₂ (Spec.Close (1 / 10 ^ 9)) [(Spec.patternFloat 23 8 1051372203 : SFlt ℚ)] vs := by
  obtain ⟨x, hx⟩ := C48_writes (K := ℚ) 15 ⟨[1, 1], [Spec.patternFloat 23 8 1051372203], false,
    false, "string"⟩ 1 rfl rfl rfl rfl (by norm_num)
  obtain ⟨vs, h1, h2, -⟩ := C45_single_partial 15 _ x 1 rfl rfl rfl (by simp)
    (by intro v hv; rw [List.mem_singleton.mp hv]; exact ⟨1051372203, by norm_num, rfl⟩) hx
  exact ⟨x, vs, h1, h2⟩

/-! ### C46: bit encodings -/

theorem encodingBits_spec (raw : Bool) (enc : String) (p w : ℕ)
    (h : Spec.encodingBits raw enc = some (p, w)) : ∃ f, (f = half ∨ f = single ∨ f = double) ∧
      f.mant = p ∧ f.ebits = w ∧ (readEnc raw enc = .int f ∨ readEnc raw enc = .hex f) := by
  cases raw with
  | true =>
    obtain ⟨rfl, rfl⟩ := Prod.mk.inj (Option.some.inj h)
    exact ⟨half, .inl rfl, rfl, rfl, .inl rfl⟩
  | false =>
    simp only [Spec.encodingBits, Bool.false_eq_true, if_false] at h
    split at h
    · obtain ⟨rfl, rfl⟩ := Prod.mk.inj (Option.some.inj h)
      exact ⟨half, .inl rfl, rfl, rfl, .inl rfl⟩
    · obtain ⟨rfl, rfl⟩ := Prod.mk.inj (Option.some.inj h)
      exact ⟨half, .inl rfl, rfl, rfl, .inr rfl⟩
    · obtain ⟨rfl, rfl⟩ := Prod.mk.inj (Option.some.inj h)
      exact ⟨single, .inr (.inl rfl), rfl, rfl, .inl rfl⟩
    · obtain ⟨rfl, rfl⟩ := Prod.mk.inj (Option.some.inj h)
      exact ⟨single, .inr (.inl rfl), rfl, rfl, .inr rfl⟩
    · obtain ⟨rfl, rfl⟩ := Prod.mk.inj (Option.some.inj h)
      exact ⟨double, .inr (.inr rfl), rfl, rfl, .inl rfl⟩
    · obtain ⟨rfl, rfl⟩ := Prod.mk.inj (Option.some.inj h)
      exact ⟨double, .inr (.inr rfl), rfl, rfl, .inr rfl⟩
    · cases h

/-- C46: an array written in a bit encoding and read back holds every value rounded to
the encoding's format; values of that format, infinities, zeros of both signs and NaN
come back as they are. -/
theorem C46_bits (compat : ℕ) (a : SArr K) (x : Xml) (c p w : ℕ)
    (hb : Spec.encodingBits a.rawHalfs a.floatEncoding = some (p, w))
    (hc : Spec.rowLength a.dims = some c) (hfull : c ∣ a.values.length)
    (hv : ∀ v ∈ a.values, Spec.Proper v) (hw : a.write compat = .ok x) (store : SFlt K → SFlt K) :
    ∃ enc' vs, SArr.read store ⟨[], [], a.integers, a.rawHalfs, "string"⟩ x
        = .ok ⟨a.dims, vs, a.integers, a.rawHalfs, enc'⟩ ∧
      List.Forall₂ (fun v v' => Spec.Rounded p w v v' ∧ (Spec.IsFloat p w v → v' = v))
        a.values vs := by
  obtain ⟨c', hc', hc0, h⟩ := SArr.read_write hw store ⟨[], [], a.integers, a.rawHalfs, "string"⟩
    rfl rfl
  rw [columnsOf_eq, hc] at hc'
  obtain rfl := Option.some.inj hc'
  refine ⟨_, _, h, ?_⟩
  rw [Nat.div_mul_cancel hfull, List.take_length]
  obtain ⟨f, hf, rfl, rfl, he⟩ := encodingBits_spec _ _ _ _ hb
  have h1 : 1 ≤ f.mant ∧ 1 ≤ f.ebits := by rcases hf with rfl | rfl | rfl <;> decide
  apply forall₂_map
  intro v hv'
  have e : (readEnc a.rawHalfs a.floatEncoding).back store v = SFlt.round f v := by
    rcases he with he | he <;> rw [he] <;> rfl
  rw [e]
  exact ⟨rounded_round f h1.1 h1.2 v (hv v hv'), round_isFloat f h1.1 v⟩

/-- C46: such an array can be written whenever the feature set allows encodings (or only
`rawHalfs` is used), rows have a length, the array is not marked as integer and, for
32-bit hex, no finite value overflows. -/
theorem C46_writes (compat : ℕ) (a : SArr K) (c p w : ℕ)
    (hb : Spec.encodingBits a.rawHalfs a.floatEncoding = some (p, w))
    (hfeat : hasFeature compat duiker = true ∨ a.floatEncoding = "string")
    (hint : a.integers = false) (hc : Spec.rowLength a.dims = some c) (hc0 : 0 < c)
    (hhex : a.floatEncoding = "hex32bit" → ∀ v ∈ a.values, Spec.IsFloat 23 8 v) :
    ∃ x, a.write compat = .ok x := by
  obtain ⟨f, hf, -, -, he⟩ := encodingBits_spec _ _ _ _ hb
  have hwe : writeEnc compat a.rawHalfs a.floatEncoding
      = .ok (readEnc a.rawHalfs a.floatEncoding) := by
    unfold writeEnc readEnc
    by_cases hs : a.floatEncoding = "string"
    · simp only [hs]
      cases a.rawHalfs <;> rfl
    · have hd := hfeat.resolve_right hs
      rw [if_pos hs, if_pos hd]
      split_ifs <;> rfl
  have htok : ∀ v ∈ a.values, ∃ t, writeToken (readEnc a.rawHalfs a.floatEncoding) v = .ok t := by
    intro v hv
    rcases he with he | he
    · rw [he]; exact ⟨_, rfl⟩
    · rw [he]
      refine ⟨_, if_pos ?_⟩
      by_cases h32 : a.floatEncoding = "hex32bit"
      · have := hhex h32 v hv
        cases v with
        | nan => rfl
        | inf s => rfl
        | fin s m =>
          obtain ⟨k, hk, rfl⟩ := isFloat_fin single s m this
          show (!(decide (f = single) && f.encodeMag (single.magVal k : K) == f.infCode)) = true
          by_cases hfs : f = single
          · subst hfs
            rw [Fmt.encodeMag_magVal _ _ hk.le]
            simp; omega
          · simp [hfs]
      · have hfs : f ≠ single := by
          rintro rfl
          unfold readEnc at he
          split_ifs at he with h1 h2 h3 h4 h5 h6
          all_goals first | exact h32 h5 | (simp [half, single, double] at he)
        cases v <;> simp [packable, hfs]
  have hrow : ∀ xs : List (SFlt K), (∀ v ∈ xs, v ∈ a.values) → ∃ t, writeRow compat a xs = .ok t := by
    intro xs hxs
    obtain ⟨ts, hts⟩ := py_mapM_exists (writeToken (readEnc a.rawHalfs a.floatEncoding)) xs
      fun y hy => htok y (hxs y hy)
    unfold writeRow
    rw [hint, hwe]
    simp only [Bool.false_eq_true, if_false, py_ok_bind, hts]
    exact ⟨_, rfl⟩
  obtain ⟨ts, hts⟩ := py_mapM_exists (fun n =>
    writeRow compat a (pySlice a.values (n * c) ((n + 1) * c))) (List.range (a.values.length / c))
    fun n _ => hrow _ fun v hv => List.mem_of_mem_drop (List.mem_of_mem_take hv)
  unfold SArr.write
  rw [(columnsOf_eq _ _).mpr hc]
  simp only [py_ok_bind, pyDivNat, if_neg hc0.ne', hts]
  exact ⟨_, rfl⟩

/-- One third is rounded to a half, minus zero stays. -/
example : ∃ x enc' vs, SArr.read id ⟨[], [], false, false, "string"⟩ x
      = .ok ⟨[1, 3], vs, false, false, enc'⟩ ∧
    List.Forall₂ (fun v v' => Spec.Rounded 10 5 v v' ∧ (Spec.IsFloat 10 5 v → v' = v))
      [.fin false (1 / 3 : ℚ), .fin true 0, .inf true] vs := by
  obtain ⟨x, hx⟩ := C46_writes (K := ℚ) 15 ⟨[1, 3], [.fin false (1 / 3), .fin true 0, .inf true],
    false, false, "hex16bit"⟩ 3 10 5 rfl (.inl rfl) rfl rfl (by norm_num)
    (fun h => absurd h (by decide))
  obtain ⟨enc', vs, h1, h2⟩ := C46_bits 15 _ x 3 10 5 rfl rfl (by decide)
    (by simp [Spec.Proper]) hx id
  exact ⟨x, enc', vs, h1, h2⟩

/-! ### C47: bit casts -/

/-- C47: the integer-to-float casts give the float the IEEE pattern stands for. -/
theorem C47_value (f : Fmt) (n : ℕ) (hn : n < 2 ^ f.width) :
    SFlt.ofBits (K := K) f n = Spec.patternFloat f.mant f.ebits n := ofBits_eq f n hn

/-- C47: integer to float and back is the identity on every pattern that is not a
NaN. -/
theorem C47_int_float_int (f : Fmt) (n : ℕ) (hn : n < 2 ^ f.width)
    (hnan : ¬ Spec.patternNaN f.mant f.ebits n) : (SFlt.ofBits (K := K) f n).bits f = n := by
  rw [patternNaN_iff] at hnan
  exact SFlt.bits_ofBits f n hn (not_lt.mp hnan)

/-- C47: float to integer and back is the identity on the floats of the format. -/
theorem C47_float_int_float (f : Fmt) (hf : f = half ∨ f = single ∨ f = double) (x : SFlt K)
    (hx : Spec.IsFloat f.mant f.ebits x) : x.bits f < 2 ^ f.width ∧ SFlt.ofBits f (x.bits f) = x := by
  have h1 : 1 ≤ f.mant := by rcases hf with rfl | rfl | rfl <;> decide
  exact ⟨SFlt.bits_lt f h1 x, ofBits_bits f h1 x hx⟩

/-- C47: float to hex text and back is the identity on the floats of the format; the
text has the format's full width. -/
theorem C47_float_hex_float (f : Fmt) (hf : f = half ∨ f = single ∨ f = double) (x : SFlt K)
    (hx : Spec.IsFloat f.mant f.ebits x) :
    ∃ t, floatToHex f x = .ok t ∧ t.length = f.width / 4 ∧ hexToFloat f t = .ok x := by
  have hg : GoodFmt f := by
    rcases hf with rfl | rfl | rfl
    exacts [goodFmt_half, goodFmt_single, goodFmt_double]
  have hp : packable f x = true := by
    cases x with
    | nan => rfl
    | inf s => rfl
    | fin s m =>
      obtain ⟨k, hk, rfl⟩ := isFloat_fin f s m hx
      show (!(decide (f = single) && f.encodeMag (f.magVal k : K) == f.infCode)) = true
      rw [Fmt.encodeMag_magVal _ _ hk.le]
      have : ¬ k = f.infCode := by omega
      simp [this]
  refine ⟨_, if_pos hp, showFixed_length _ _ _, ?_⟩
  have : x.bits f < 16 ^ (f.width / 4) := by rw [hg.2]; exact SFlt.bits_lt f hg.1 x
  simp only [hexToFloat, parseHex_showFixed _ _ this, py_ok_bind, py_pure]
  rw [ofBits_bits f hg.1 x hx]

/-- C47: hex text and integers agree: the hex text of a float spells its bit pattern. -/
theorem C47_hex_int (f : Fmt) (hf : f = half ∨ f = single ∨ f = double) (n : ℕ)
    (hn : n < 2 ^ f.width) (hnan : ¬ Spec.patternNaN f.mant f.ebits n) :
    ∃ t, floatToHex f (SFlt.ofBits (K := K) f n) = .ok t ∧ parseHex (f.width / 4) t = .ok n := by
  have hg : GoodFmt f := by
    rcases hf with rfl | rfl | rfl
    exacts [goodFmt_half, goodFmt_single, goodFmt_double]
  obtain ⟨t, h1, -, -⟩ := C47_float_hex_float f hf _ (isFloat_ofBits (K := K) f n hn)
  refine ⟨t, h1, ?_⟩
  unfold floatToHex at h1
  split at h1
  · rw [← Except.ok.inj h1, C47_int_float_int f n hn hnan,
      parseHex_showFixed _ _ (by rw [hg.2]; exact hn)]
  · cases h1

theorem hexVal_upper (c : Char) : hexVal c.toUpper = hexVal c := by
  by_cases h : 'a'.val ≤ c.val ∧ c.val ≤ 'z'.val
  · have key : ∀ n < 123, 97 ≤ n → hexVal (Char.ofNat n).toUpper = hexVal (Char.ofNat n) := by decide
    have h1 : 97 ≤ c.toNat := UInt32.le_iff_toNat_le.mp h.1
    have h2 : c.toNat ≤ 122 := UInt32.le_iff_toNat_le.mp h.2
    have := key c.toNat (by omega) h1
    rwa [Char.ofNat_toNat] at this
  · unfold Char.toUpper
    rw [dif_neg h]

/-- C47: hex digits are read in either case (`text.decode("hex")`): upper-case text gives the same number, or fails alike. -/
theorem C47_hex_case (f : Fmt) (t : Txt) : (hexToFloat f (t.map Char.toUpper) : Py (SFlt K)) = hexToFloat f t := by
  have key : ∀ (t : Txt) (acc : ℕ), readDigits hexVal 16 acc (t.map Char.toUpper) = readDigits hexVal 16 acc t := by
    intro t
    induction t with
    | nil => intro acc; rfl
    | cons c cs ih =>
      intro acc
      simp only [List.map_cons, readDigits, hexVal_upper]
      cases hexVal c with
      | none => rfl
      | some d => exact ih _
  unfold hexToFloat parseHex
  rw [List.length_map, key]

/-- The text of the half 0x3c0a in capitals. -/
example : "3c0a".toList.map Char.toUpper = "3C0A".toList ∧ hexToFloat half "3C0A".toList = .ok (SFlt.ofBits (K := ℚ) half 0x3c0a) := by
  constructor
  · decide
  · rfl

/-- Minus zero, the smallest subnormal and an infinity are such patterns. -/
example : ¬ Spec.patternNaN half.mant half.ebits 32768 ∧ ¬ Spec.patternNaN half.mant half.ebits 1 ∧
    ¬ Spec.patternNaN double.mant double.ebits 0x7ff0000000000000 ∧
    Spec.IsFloat half.mant half.ebits (.fin true (0 : ℚ)) := by
  unfold Spec.patternNaN
  refine ⟨by decide, by decide, by decide +kernel, 32768, by decide, ?_⟩
  decide +kernel

end CLF
