import Verif.Lemmas.SingleScale
import Verif.Props.Image

set_option linter.unusedSectionVars false

/-!
# Images of integers
-/

namespace CLF

variable {K : Type} [Field K] [LinearOrder K] [IsStrictOrderedRing K] [FloorRing K]

/-! ## C67: packed integers -/

/-- Words holding samples of `n` bits in their high bits. -/
def Spec.Packed (n : ℕ) (words : List ℕ) : Prop :=
  ∀ x ∈ words, ∃ s < 2 ^ n, x = s * 2 ^ (16 - n)

/-- The values of an integer image survive the conversion to `float32`. -/
def Spec.KeepsWords (A : Arith K) : Prop := ∀ k : ℕ, k < 2 ^ 16 → A.f32 (.fin (k : K)) = .fin (k : K)

theorem store_word (n shift k : ℕ) (h : k * 2 ^ shift < 2 ^ n) (hn : n ≤ 16) :
    storeUInt n shift (.fin (k : K)) = .ok (k * 2 ^ shift) := by
  have h16 : 2 ^ n ≤ 2 ^ 16 := Nat.pow_le_pow_right (by norm_num) hn
  have ht : truncInt (.fin (k : K)) = .ok (k : ℤ) := by
    unfold truncInt
    simp only [if_neg (not_lt.mpr (Nat.cast_nonneg (α := K) k)), Int.floor_natCast]
  unfold storeUInt
  rw [ht, py_ok_bind]
  simp only
  have e : (k : ℤ) * 2 ^ shift = ((k * 2 ^ shift : ℕ) : ℤ) := by push_cast; rfl
  have hlt : ((k * 2 ^ shift : ℕ) : ℤ) < 65536 := by
    have : k * 2 ^ shift < 65536 := lt_of_lt_of_le h (h16.trans (by norm_num))
    exact_mod_cast this
  have hc : -(2 : ℤ) ^ 63 ≤ ((k * 2 ^ shift : ℕ) : ℤ) ∧ ((k * 2 ^ shift : ℕ) : ℤ) < 2 ^ 63 := by
    generalize ((k * 2 ^ shift : ℕ) : ℤ) = i at *
    have h0 : (0 : ℤ) ≤ i := by rw [← e]; positivity
    constructor
    · linarith [show (0 : ℤ) < 2 ^ 63 by positivity]
    · linarith [show (65536 : ℤ) < 2 ^ 63 by norm_num]
  rw [e, if_pos hc]
  have e2 : (2 : ℤ) ^ n = ((2 ^ n : ℕ) : ℤ) := by push_cast; rfl
  rw [e2, Int.emod_eq_of_lt (Int.natCast_nonneg _) (by exact_mod_cast h), Int.toNat_natCast, py_pure]

theorem slice_all (A : Arith K) (hA : Spec.KeepsWords A) (l : List ℕ) (h : ∀ x ∈ l, x < 2 ^ 16) :
    (Samples.ints l).slice A 0 l.length = l.map fun x : ℕ => Flt.fin (x : K) := by
  unfold Samples.slice pySlice
  simp only [List.drop_zero, Nat.sub_zero, List.take_length]
  exact List.map_congr_left fun x hx => hA x (h x hx)

theorem store_words (n shift : ℕ) (hn : n ≤ 16) (l : List ℕ) (h : ∀ x ∈ l, x * 2 ^ shift < 2 ^ n) :
    (l.map fun x : ℕ => Flt.fin (x : K)).mapM (storeUInt n shift) = .ok (l.map (· * 2 ^ shift)) := by
  rw [py_mapM_map]
  exact py_mapM_ok _ _ _ fun x hx => store_word n shift x (h x hx) hn

theorem shift_words (l : List ℕ) (s : ℕ) :
    (l.mapM fun x => shiftRight x (s : ℤ)) = .ok (l.map (· / 2 ^ s)) :=
  py_mapM_ok _ _ _ fun x _ => by
    unfold shiftRight
    rw [if_neg (by omega), Int.toNat_natCast, Nat.shiftRight_eq_div_pow]

theorem packed_lt {n : ℕ} (hn : n ≤ 16) {words : List ℕ} (hp : Spec.Packed n words) :
    ∀ x ∈ words, x / 2 ^ (16 - n) < 2 ^ n ∧ x / 2 ^ (16 - n) * 2 ^ (16 - n) = x ∧ x < 2 ^ 16 := by
  intro x hx
  obtain ⟨s, hs, rfl⟩ := hp x hx
  have h0 : 0 < 2 ^ (16 - n) := by positivity
  rw [Nat.mul_div_cancel _ h0]
  refine ⟨hs, rfl, ?_⟩
  calc s * 2 ^ (16 - n) < 2 ^ n * 2 ^ (16 - n) := Nat.mul_lt_mul_of_pos_right hs h0
    _ = 2 ^ 16 := by rw [← pow_add]; congr 1; omega

/-- What is read of packed words. -/
theorem read_packed (img : Image K) (n : ℕ) (hn : n ≤ 16) (ht : img.type = .uint16) (hb : img.bits = some n)
    (l : List ℕ) (hd : img.data = .ints l) :
    readPixelArray (some img) = .ok ⟨.ints (l.map (· / 2 ^ (16 - n))),
      if n = 10 then .str "10i" else if n = 12 then .str "12i" else .str "16i", img⟩ := by
  obtain ⟨type, w, h, c, b, d⟩ := img
  simp only at ht hb hd
  subst ht hb hd
  unfold readPixelArray
  simp only [typeDepth, py_ok_bind]
  split
  · rename_i h
    have e : (16 : ℤ) - n = ((16 - n : ℕ) : ℤ) := by omega
    rw [e, shift_words]
    rfl
  · rename_i h
    have : n = 16 := by omega
    subst this
    simp

/-- C67 for samples of 10, 12 and 16 bits: read and written back, the words and the image are
unchanged.  Missing: other widths. -/
theorem C67_partial (A : Arith K) (hA : Spec.KeepsWords A) (img : Image K) (n : ℕ)
    (hn : n = 10 ∨ n = 12 ∨ n = 16) (ht : img.type = .uint16) (hb : img.bits = some n) (words : List ℕ)
    (hd : img.data = .ints words) (hp : Spec.Packed n words) :
    ∃ p, readPixelArray (some img) = .ok p ∧
      writePixelArray (p.data.slice A 0 words.length) p.depth img = .ok img := by
  have hn16 : n ≤ 16 := by omega
  refine ⟨_, read_packed img n hn16 ht hb words hd, ?_⟩
  have hw := packed_lt hn16 hp
  have hpow : 2 ^ n ≤ 2 ^ 16 := Nat.pow_le_pow_right (by norm_num) hn16
  have hsl := slice_all A hA (words.map (· / 2 ^ (16 - n))) (by
    intro x hx
    obtain ⟨y, hy, rfl⟩ := List.mem_map.mp hx
    have := (hw y hy).1
    omega)
  rw [List.length_map] at hsl
  simp only [hsl]
  have hst := store_words (K := K) 16 (16 - n) le_rfl (words.map (· / 2 ^ (16 - n))) (by
    intro x hx
    obtain ⟨y, hy, rfl⟩ := List.mem_map.mp hx
    rw [(hw y hy).2.1]
    exact (hw y hy).2.2)
  have hid : (words.map (· / 2 ^ (16 - n))).map (· * 2 ^ (16 - n)) = words := by
    rw [List.map_map]
    conv_rhs => rw [← List.map_id words]
    exact List.map_congr_left fun x hx => (hw x hx).2.1
  rw [hid] at hst
  have himg : img = ⟨.uint16, img.width, img.height, img.channels, some n, .ints words⟩ := by
    rw [← ht, ← hb, ← hd]
  rcases hn with rfl | rfl | rfl
  · norm_num at hst
    rw [himg]
    simp [writePixelArray, depthType, depthBits, hst, py_pure]
  · norm_num at hst
    rw [himg]
    simp [writePixelArray, depthType, depthBits, hst, py_pure]
  · norm_num at hst
    rw [himg]
    simp [writePixelArray, depthType, depthBits, hst, py_pure]

/-- The image of a 10-bit file with the samples 1023, 0 and 1. -/
example : ∃ img : Image ℚ, Spec.KeepsWords ratArith ∧ img.type = .uint16 ∧ img.bits = some 10 ∧
    img.data = .ints [65472, 0, 64] ∧ Spec.Packed 10 [65472, 0, 64] :=
  ⟨⟨.uint16, 1, 1, 3, some 10, .ints [65472, 0, 64]⟩, fun _ _ => rfl, rfl, rfl, rfl, by
    intro x hx
    simp only [List.mem_cons, List.not_mem_nil, or_false] at hx
    rcases hx with rfl | rfl | rfl
    · exact ⟨1023, by norm_num, by norm_num⟩
    · exact ⟨0, by norm_num, by norm_num⟩
    · exact ⟨1, by norm_num, by norm_num⟩⟩

/-- C67, every other width below 16: the samples are read from the high bits and written to the low
bits of words that are declared to have 16 bits. -/
theorem C67_other (A : Arith K) (hA : Spec.KeepsWords A) (img : Image K) (n : ℕ)
    (hn : n < 16) (hn10 : n ≠ 10) (hn12 : n ≠ 12) (ht : img.type = .uint16) (hb : img.bits = some n) (words : List ℕ)
    (hd : img.data = .ints words) (hp : Spec.Packed n words) :
    ∃ p, readPixelArray (some img) = .ok p ∧
      writePixelArray (p.data.slice A 0 words.length) p.depth img
        = .ok { img with bits := some 16, data := .ints (words.map (· / 2 ^ (16 - n))) } := by
  refine ⟨_, read_packed img n hn.le ht hb words hd, ?_⟩
  rw [if_neg hn10, if_neg hn12]
  have hw := packed_lt hn.le hp
  have hpow : 2 ^ n ≤ 2 ^ 16 := Nat.pow_le_pow_right (by norm_num) hn.le
  have hlt : ∀ x ∈ words.map (· / 2 ^ (16 - n)), x < 2 ^ 16 := by
    intro x hx
    obtain ⟨y, hy, rfl⟩ := List.mem_map.mp hx
    have := (hw y hy).1
    omega
  have hsl := slice_all A hA (words.map (· / 2 ^ (16 - n))) hlt
  rw [List.length_map] at hsl
  simp only [hsl]
  have hst := store_words (K := K) 16 0 le_rfl (words.map (· / 2 ^ (16 - n))) (by simpa using hlt)
  simp only [pow_zero, Nat.mul_one, List.map_id'] at hst
  generalize words.map (· / 2 ^ (16 - n)) = samples at hst ⊢
  generalize samples.map (fun x : ℕ => Flt.fin (x : K)) = pixels at hst ⊢
  simp [writePixelArray, depthType, depthBits, hst, hb, ht, py_pure]

/-- C67 is false: for every width from 1 to 15 except 10 and 12, an image with a sample that is
not 0 is changed. -/
theorem C67_false (A : Arith K) (hA : Spec.KeepsWords A) (img : Image K) (n : ℕ)
    (hn : n < 16) (hn10 : n ≠ 10) (hn12 : n ≠ 12) (ht : img.type = .uint16) (hb : img.bits = some n) (words : List ℕ)
    (hd : img.data = .ints words) (hp : Spec.Packed n words) (x : ℕ) (hx : x ∈ words) (h0 : x ≠ 0) :
    ∃ p out, readPixelArray (some img) = .ok p ∧
      writePixelArray (p.data.slice A 0 words.length) p.depth img = .ok out ∧ out.data ≠ img.data := by
  obtain ⟨p, h1, h2⟩ := C67_other A hA img n hn hn10 hn12 ht hb words hd hp
  refine ⟨p, _, h1, h2, ?_⟩
  rw [hd]
  intro h
  have h : words.map (· / 2 ^ (16 - n)) = words := by injection h
  have hx' : x / 2 ^ (16 - n) = x := by
    have h3 := List.map_eq_map_iff.mp (h.trans (List.map_id words).symm) x hx
    exact h3
  have h2 : 2 ≤ 2 ^ (16 - n) := by
    calc 2 = 2 ^ 1 := rfl
      _ ≤ _ := Nat.pow_le_pow_right (by norm_num) (by omega)
  have := Nat.div_lt_self (Nat.pos_of_ne_zero h0) h2
  omega

/-- A 14-bit image with the sample 16383. -/
example : ∃ img : Image ℚ, img.type = .uint16 ∧ img.bits = some 14 ∧
    img.data = .ints [65532] ∧ Spec.Packed 14 [65532] :=
  ⟨⟨.uint16, 1, 1, 1, some 14, .ints [65532]⟩, rfl, rfl, rfl, by
    intro x hx
    simp only [List.mem_cons, List.not_mem_nil, or_false] at hx
    exact ⟨16383, by norm_num, by rw [hx]; norm_num⟩⟩

/-- Images that declare more than 16 bits, held in 16-bit words, cannot be read. -/
theorem C67_wide (img : Image K) (n : ℕ) (hn : 16 < n) (ht : img.type = .uint16) (hb : img.bits = some n)
    (x : ℕ) (words : List ℕ) (hd : img.data = .ints (x :: words)) :
    readPixelArray (some img) = .error .valueError := by
  obtain ⟨type, w, h, c, b, d⟩ := img
  simp only at ht hb hd
  subst ht hb hd
  unfold readPixelArray
  simp only [typeDepth, py_ok_bind]
  rw [if_pos (by omega), py_mapM_cons]
  simp only [shiftRight]
  rw [if_pos (by omega)]
  rfl

/-! ## C86: filtering with an empty list -/

/-- Results are stored as `float32`, rounded once or by way of `float64`. -/
def Spec.Rounds (A : Arith K) : Prop := ∃ w : Flt K → Flt K, Spec.Wide w ∧ ∀ x, A.f32 x = single.round (w x)

theorem rounds_words {A : Arith K} (hA : Spec.Rounds A) : Spec.KeepsWords A := by
  obtain ⟨w, hw, h⟩ := hA
  intro k hk
  rw [h, wide_nat hw k (by omega)]

/-- Images in the formats of CLF, and the number of bits they have when written. -/
inductive Spec.Supported (A : Arith K) : Image K → Option ℕ → Prop
  | byte (w h c : ℕ) (bits : Option ℕ) (l : List ℕ) (hl : ∀ x ∈ l, x < 2 ^ 8) :
      Spec.Supported A ⟨.uint8, w, h, c, bits, .ints l⟩ (some 8)
  | packed (w h c n : ℕ) (hn : n = 10 ∨ n = 12 ∨ n = 16) (l : List ℕ) (hl : Spec.Packed n l) :
      Spec.Supported A ⟨.uint16, w, h, c, some n, .ints l⟩ (some n)
  | word (w h c : ℕ) (l : List ℕ) (hl : ∀ x ∈ l, x < 2 ^ 16) :
      Spec.Supported A ⟨.uint16, w, h, c, none, .ints l⟩ (some 16)
  | half (w h c : ℕ) (l : List (Flt K)) (hl : ∀ x ∈ l, A.f32 x = x ∧ half.round x = x) :
      Spec.Supported A ⟨.half, w, h, c, none, .floats l⟩ none
  | float (w h c : ℕ) (l : List (Flt K)) (hl : ∀ x ∈ l, A.f32 x = x) :
      Spec.Supported A ⟨.float, w, h, c, none, .floats l⟩ none

/-- A value taken from depth `d` to the unit scale and back by two Ranges and an empty list. -/
def unitAndBack (A : Arith K) (d : AVal) (x : Flt K) : Flt K :=
  A.f32 (normalizedToBitDepth (A.f32 (A.f32 (A.f32 (A.f32 (bitDepthToNormalized x (some d)))))) (some d))

theorem range_depths (A : Arith K) (din dout : AVal) (v : List (Flt K)) :
    optRange A (some (depthRange (some din) (some dout))) v
      = .ok (v.map fun x => A.f32 (normalizedToBitDepth (A.f32 (bitDepthToNormalized x (some din))) (some dout))) := by
  unfold optRange
  simp only
  rw [rangeProcess_eq A (depthRange (some din) (some dout)) din dout v rfl rfl true rfl none none none none rfl rfl rfl rfl]
  rw [py_mapM_ok (rangeStep A (some din) (some dout) true none none none none)
    (fun x => A.f32 (normalizedToBitDepth (A.f32 (bitDepthToNormalized x (some din))) (some dout))) _ fun x _ => rfl]
  rfl

theorem depthRange_none_out (d : AVal) : (depthRange (some d) none : Base K) = depthRange (some d) (some (.other "None")) := rfl
theorem depthRange_none_in (d : AVal) : (depthRange none (some d) : Base K) = depthRange (some (.other "None")) (some d) := rfl

theorem empty_values (A : Arith K) (compat : ℕ) (p : PixelArray K) (s : ℕ) (v : List (Flt K)) :
    filterValues A compat (filterJob [] p none).2 s v = .ok (v.map (unitAndBack A p.depth)) := by
  unfold filterValues filterJob
  have h : (none : Depth) ≠ some p.depth := by simp
  have hi : listInDepth ([] : List (Node K)) = none := rfl
  have ho : listOutDepth ([] : List (Node K)) = none := rfl
  simp only [hi, ho, if_pos h, depthRange_none_out, depthRange_none_in, range_depths, py_ok_bind]
  have hl : ∀ l : List (Flt K), processList A compat [] l s = .ok (l.map A.f32) := by
    intro l; unfold processList; rfl
  simp only [hl, py_ok_bind, range_depths, List.map_map]
  congr 1

theorem empty_rows (A : Arith K) (compat : ℕ) (p : PixelArray K)
    (h : p.data.length = p.image.width * p.image.height * p.image.channels) :
    ∃ rows, Spec.filteredRows A compat (filterJob [] p none).2 = .ok rows ∧
      rows.flatten = (p.data.slice A 0 p.data.length).map (unitAndBack A p.depth) := by
  refine ⟨_, py_mapM_ok _ _ _ fun r _ => empty_values A compat p _ _, ?_⟩
  have := slice_chunks A p.data (p.image.width * p.image.channels) p.image.height 0
  rw [Nat.zero_mul, Nat.zero_add, ← List.range_eq_range'] at this
  rw [h, show p.image.width * p.image.height * p.image.channels = p.image.height * (p.image.width * p.image.channels) by ring,
    ← this, List.map_flatten, List.map_map]
  congr 1
  refine List.map_congr_left fun r _ => ?_
  simp only [Function.comp, Job.row, filterJob, Nat.mul_assoc]

/-- Integers come back from the unit scale. -/
theorem unitAndBack_word {A : Arith K} (hA : Spec.Rounds A) (n : ℕ) (d : AVal)
    (hd : (n, d) ∈ [(8, AVal.str "8i"), (10, .str "10i"), (12, .str "12i"), (16, .str "16i")]) (v : ℕ) (hv : v < 2 ^ n) :
    unitAndBack A d (.fin (v : K)) = .fin (v : K) := by
  obtain ⟨w, hw, h⟩ := hA
  have hn : n = 8 ∨ n = 10 ∨ n = 12 ∨ n = 16 := by
    simp only [List.mem_cons, Prod.mk.injEq, List.not_mem_nil, or_false] at hd
    tauto
  have hsz : ∀ x : Flt K, bitDepthToNormalized x (some d) = x / .fin (2 ^ n - 1) ∧
      normalizedToBitDepth x (some d) = x * .fin (2 ^ n - 1) := by
    simp only [List.mem_cons, Prod.mk.injEq, List.not_mem_nil, or_false] at hd
    intro x
    rcases hd with ⟨rfl, rfl⟩ | ⟨rfl, rfl⟩ | ⟨rfl, rfl⟩ | ⟨rfl, rfl⟩ <;>
      simp [bitDepthToNormalized, normalizedToBitDepth]
  have hM : (2 : K) ^ n - 1 ≠ 0 := by
    rcases hn with rfl | rfl | rfl | rfl <;> norm_num
  have hdiv : (Flt.fin (v : K) : Flt K) / .fin (2 ^ n - 1) = .fin ((v : K) / (2 ^ n - 1)) := by
    change Flt.div _ _ = _
    simp [Flt.div, hM]
  obtain ⟨q, h1, h2, h3⟩ := single_scale hw n hn v hv
  have hmul : (Flt.fin q : Flt K) * .fin (2 ^ n - 1) = .fin (q * (2 ^ n - 1)) := rfl
  unfold unitAndBack
  rw [(hsz _).1, hdiv, (hsz _).2]
  simp only [h, h1, h2, hmul, h3]

theorem depth_float (x : Flt K) (d : AVal) (hd : d = .str "16f" ∨ d = .str "32f") :
    bitDepthToNormalized x (some d) = x ∧ normalizedToBitDepth x (some d) = x := by
  rcases hd with rfl | rfl <;> simp [bitDepthToNormalized, normalizedToBitDepth]

theorem unitAndBack_float {A : Arith K} (d : AVal) (hd : d = .str "16f" ∨ d = .str "32f") (x : Flt K)
    (hx : A.f32 x = x) : unitAndBack A d x = x := by
  unfold unitAndBack
  rw [(depth_float x d hd).1, hx, hx, hx, hx, (depth_float x d hd).2, hx]

/-- Filtering with an empty list, whatever the workers do: read, to the unit scale and back,
written. -/
theorem filter_empty (A : Arith K) (compat : ℕ) (img : Image K) (workers : ℕ) (hw : 1 < workers)
    (schedule : List ℕ) (hs : Spec.Sized img) (hm : 0 < img.width * img.channels) (hh : 2 ≤ img.height)
    (hf : Spec.Finished workers img.height schedule) (p : PixelArray K) (hr : readPixelArray (some img) = .ok p) :
    filterImage A compat (some img) [] none workers schedule = (do
      let out ← writePixelArray
        (((p.data.slice A 0 p.data.length).map (unitAndBack A p.depth)).map A.f32) p.depth img
      .ok (some out)) := by
  obtain ⟨hi, hl⟩ := read_image hr
  obtain ⟨rows, h1, h2⟩ := empty_rows A compat p (by rw [hl, hi]; exact hs)
  rw [C73_partial A compat img [] none workers hw schedule hs hm hh hf p hr rows h1, h2]
  rfl

/-- The words of an image of `n` bits. -/
theorem empty_words {A : Arith K} (hA : Spec.Rounds A) (n : ℕ) (d : AVal)
    (hd : (n, d) ∈ [(8, AVal.str "8i"), (10, .str "10i"), (12, .str "12i"), (16, .str "16i")])
    (l : List ℕ) (hl : ∀ x ∈ l, x < 2 ^ n) :
    (((Samples.ints l).slice A 0 l.length).map (unitAndBack A d)).map A.f32 = l.map fun x : ℕ => Flt.fin (x : K) := by
  have hn : n = 8 ∨ n = 10 ∨ n = 12 ∨ n = 16 := by
    simp only [List.mem_cons, Prod.mk.injEq, List.not_mem_nil, or_false] at hd
    tauto
  have hpow : 2 ^ n ≤ 2 ^ 16 := Nat.pow_le_pow_right (by norm_num) (by omega)
  have h16 : ∀ x ∈ l, x < 2 ^ 16 := fun x hx => by have := hl x hx; omega
  rw [slice_all A (rounds_words hA) l h16, List.map_map, List.map_map]
  refine List.map_congr_left fun x hx => ?_
  simp only [Function.comp, unitAndBack_word hA n d hd x (hl x hx)]
  exact rounds_words hA x (h16 x hx)

theorem empty_floats {A : Arith K} (d : AVal) (hd : d = .str "16f" ∨ d = .str "32f") (l : List (Flt K))
    (hl : ∀ x ∈ l, A.f32 x = x) :
    (((Samples.floats l).slice A 0 l.length).map (unitAndBack A d)).map A.f32 = l := by
  unfold Samples.slice pySlice
  simp only [List.drop_zero, Nat.sub_zero, List.take_length, List.map_map]
  conv_rhs => rw [← List.map_id l]
  refine List.map_congr_left fun x hx => ?_
  simp only [Function.comp, hl x hx, unitAndBack_float d hd x (hl x hx), id]

/-- C86: filtering with an empty list gives the image back, in every format of CLF, although
the values go through `float32` numbers between 0 and 1 and are truncated at the end. -/
theorem C86_empty (A : Arith K) (hA : Spec.Rounds A) (compat : ℕ) (img : Image K) (bits : Option ℕ)
    (hi : Spec.Supported A img bits) (workers : ℕ) (hw : 1 < workers) (schedule : List ℕ) (hs : Spec.Sized img)
    (hm : 0 < img.width * img.channels) (hh : 2 ≤ img.height) (hf : Spec.Finished workers img.height schedule) :
    filterImage A compat (some img) [] none workers schedule = .ok (some { img with bits := bits }) := by
  cases hi with
  | byte w h c b l hl =>
    have hr : readPixelArray (some (⟨.uint8, w, h, c, b, .ints l⟩ : Image K))
        = .ok ⟨.ints l, .str "8i", ⟨.uint8, w, h, c, b, .ints l⟩⟩ := by
      cases b <;> rfl
    rw [filter_empty A compat _ workers hw schedule hs hm hh hf _ hr]
    have := empty_words hA 8 (.str "8i") (by simp) l hl
    simp only [Samples.length, this]
    have hst := store_words (K := K) 8 0 (by omega) l (by simpa using hl)
    simp only [pow_zero, Nat.mul_one, List.map_id'] at hst
    cases b <;> simp [writePixelArray, depthType, depthBits, hst, py_pure]
  | word w h c l hl =>
    have hr : readPixelArray (some (⟨.uint16, w, h, c, none, .ints l⟩ : Image K))
        = .ok ⟨.ints l, .str "16i", ⟨.uint16, w, h, c, none, .ints l⟩⟩ := rfl
    rw [filter_empty A compat _ workers hw schedule hs hm hh hf _ hr]
    have := empty_words hA 16 (.str "16i") (by simp) l hl
    simp only [Samples.length, this]
    have hst := store_words (K := K) 16 0 (by omega) l (by simpa using hl)
    simp only [pow_zero, Nat.mul_one, List.map_id'] at hst
    simp [writePixelArray, depthType, depthBits, hst, py_pure]
  | packed w h c n hn l hl =>
    have hn16 : n ≤ 16 := by omega
    have hr := read_packed (⟨.uint16, w, h, c, some n, .ints l⟩ : Image K) n hn16 rfl rfl l rfl
    have hp := packed_lt hn16 hl
    rw [filter_empty A compat _ workers hw schedule hs hm hh hf _ hr]
    have hlt : ∀ x ∈ l.map (· / 2 ^ (16 - n)), x < 2 ^ n := by
      intro x hx
      obtain ⟨y, hy, rfl⟩ := List.mem_map.mp hx
      exact (hp y hy).1
    have hst := store_words (K := K) 16 (16 - n) le_rfl (l.map (· / 2 ^ (16 - n))) (by
      intro x hx
      obtain ⟨y, hy, rfl⟩ := List.mem_map.mp hx
      rw [(hp y hy).2.1]
      exact (hp y hy).2.2)
    have hid : (l.map (· / 2 ^ (16 - n))).map (· * 2 ^ (16 - n)) = l := by
      rw [List.map_map]
      conv_rhs => rw [← List.map_id l]
      exact List.map_congr_left fun x hx => (hp x hx).2.1
    rw [hid] at hst
    have := empty_words hA n (if n = 10 then .str "10i" else if n = 12 then .str "12i" else .str "16i") (by
      rcases hn with rfl | rfl | rfl <;> simp) _ hlt
    simp only [Samples.length, this]
    rcases hn with rfl | rfl | rfl
    · norm_num at hst
      simp [writePixelArray, depthType, depthBits, hst, py_pure]
    · norm_num at hst
      simp [writePixelArray, depthType, depthBits, hst, py_pure]
    · norm_num at hst
      simp [writePixelArray, depthType, depthBits, hst, py_pure]
  | half w h c l hl =>
    have hr : readPixelArray (some (⟨.half, w, h, c, none, .floats l⟩ : Image K))
        = .ok ⟨.floats l, .str "16f", ⟨.half, w, h, c, none, .floats l⟩⟩ := rfl
    rw [filter_empty A compat _ workers hw schedule hs hm hh hf _ hr]
    have := empty_floats (A := A) (.str "16f") (.inl rfl) l fun x hx => (hl x hx).1
    simp only [Samples.length, this]
    have hst : l.map half.round = l := by
      conv_rhs => rw [← List.map_id l]
      exact List.map_congr_left fun x hx => (hl x hx).2
    simp [writePixelArray, depthType, hst, py_pure]
  | float w h c l hl =>
    have hr : readPixelArray (some (⟨.float, w, h, c, none, .floats l⟩ : Image K))
        = .ok ⟨.floats l, .str "32f", ⟨.float, w, h, c, none, .floats l⟩⟩ := rfl
    rw [filter_empty A compat _ workers hw schedule hs hm hh hf _ hr]
    have := empty_floats (A := A) (.str "32f") (.inr rfl) l hl
    simp only [Samples.length, this]
    simp [writePixelArray, depthType, py_pure]

/-- Without rounding the truncation at the end would be harmless too: the point of C86 is that
the rounded product is never below the integer.  Here is an arithmetic where it is. -/
def floorArith : Arith ℚ := ⟨fun x => match x with
  | .fin v => .fin (⌊v * 2 ^ 24⌋ / 2 ^ 24)
  | x => x, fun x _ => x, id⟩

example : filterImage floorArith 0 (some ⟨.uint8, 1, 2, 1, some 8, .ints [1, 2]⟩) [] none 2 [0, 1, 1, 0]
    = .ok (some ⟨.uint8, 1, 2, 1, some 8, .ints [0, 1]⟩) := by decide +kernel

/-- The arithmetic of `float32` by way of `float64`. -/
def floatArith : Arith ℚ := ⟨fun x => single.round (double.round x), fun x _ => x, id⟩

example : Spec.Rounds floatArith := ⟨_, .inr fun _ => rfl, fun _ => rfl⟩

example : ∃ img : Image ℚ, Spec.Supported floatArith img (some 8) ∧ Spec.Sized img ∧
    0 < img.width * img.channels ∧ 2 ≤ img.height ∧ Spec.Finished 2 img.height [0, 1, 1, 0] :=
  ⟨_, .byte 1 2 1 (some 8) [1, 254] (by simp), rfl, by decide, by decide, by unfold Spec.Finished; decide⟩

end CLF
