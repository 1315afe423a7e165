import Verif.Model.HalfPack
import Verif.Model.Image
import Verif.Lemmas.HalfDomain

/-!
# C101: packed half-floats

Half-floats packed into floats and unpacked again, on the way through Python in any form
that keeps floats, are the same values.  Before OpenImageIO 1.8 this fails for images with
an odd number of values.
-/

set_option linter.unusedSectionVars false

namespace CLF

variable {K : Type} [Field K] [LinearOrder K] [IsStrictOrderedRing K] [FloorRing K]

/-- The data may become quiet at some places; other patterns are kept. -/
def Spec.Transported (ws ws' : List ℕ) : Prop := List.Forall₂ (fun w w' => w' = w ∨ w' = quiet w) ws ws'

theorem half_encode_lt (x : Flt K) : half.encode x < 65536 := by
  cases x with
  | nan => simp only [Fmt.encode, half_infCode]; norm_num [half]
  | inf neg =>
    simp only [Fmt.encode, half_infCode, half_signBit]
    cases neg <;> norm_num
  | fin x =>
    simp only [Fmt.encode, half_signBit]
    have := Fmt.encodeMag_le half |x|
    rw [half_infCode] at this
    split <;> omega

theorem half_decode_nan_of (n : ℕ) (h : 31744 < n % 32768) : (half.decode n : Flt K) = .nan := by
  have h1 : ¬ n % half.signBit < half.infCode := by rw [half_signBit, half_infCode]; omega
  have h2 : ¬ n % half.signBit = half.infCode := by rw [half_signBit, half_infCode]; omega
  unfold Fmt.decode
  simp only [if_neg h1, if_neg h2]

/-- Both halfs of a float keep their values when it becomes quiet. -/
theorem quiet_halfs (a b : ℕ) (ha : a < 65536) (hb : b < 65536) :
    (half.decode (quiet (a + 65536 * b) % 65536) : Flt K) = half.decode a ∧
    (half.decode (quiet (a + 65536 * b) / 65536) : Flt K) = half.decode b := by
  unfold quiet
  split
  · rename_i h
    obtain ⟨h1, h2, h3⟩ := h
    have e1 : (a + 65536 * b + 4194304) % 65536 = a := by omega
    have e2 : (a + 65536 * b + 4194304) / 65536 = b + 64 := by omega
    rw [e1, e2]
    refine ⟨rfl, ?_⟩
    rw [half_decode_nan_of b (by omega), half_decode_nan_of (b + 64) (by omega)]
  · have e1 : (a + 65536 * b) % 65536 = a := by omega
    have e2 : (a + 65536 * b) / 65536 = b := by omega
    rw [e1, e2]
    exact ⟨rfl, rfl⟩

/-- C101 on patterns: an even number of halfs is packed into half as many floats and comes back
with its values, even where NaNs became quiet. -/
theorem C101_patterns (cs : List ℕ) (hc : ∀ c ∈ cs, c < 65536) (he : Even cs.length) :
    ∃ ws, packHalfs cs = .ok ws ∧ 2 * ws.length = cs.length ∧ (∀ w ∈ ws, w < 2 ^ 32) ∧
      unpackHalfs ws = cs ∧
      ∀ ws', Spec.Transported ws ws' → (unpackHalfs ws').map (half.decode (K := K)) = cs.map half.decode := by
  match cs, he with
  | [], _ => exact ⟨[], rfl, rfl, by simp, rfl, fun ws' h => by cases h; rfl⟩
  | [_], he => simp at he
  | a :: b :: r, he =>
    have ha := hc a (by simp)
    have hb := hc b (by simp)
    have hr : Even r.length := by
      simp only [List.length_cons] at he
      rwa [Nat.even_add_one, Nat.even_add_one, not_not] at he
    obtain ⟨ws, h1, h2, h3, h4, h5⟩ := C101_patterns r (fun c h => hc c (by simp [h])) hr
    refine ⟨(a + 65536 * b) :: ws, ?_, ?_, ?_, ?_, ?_⟩
    · rw [packHalfs, h1]; rfl
    · simp only [List.length_cons]; omega
    · intro w hw
      rcases List.mem_cons.mp hw with rfl | hw
      · norm_num; omega
      · exact h3 w hw
    · have e1 : (a + 65536 * b) % 65536 = a := by omega
      have e2 : (a + 65536 * b) / 65536 = b := by omega
      have h4' : (ws.map fun w => [w % 65536, w / 65536]).flatten = r := h4
      simp only [unpackHalfs, List.map_cons, List.flatten_cons, e1, e2, h4', List.cons_append, List.nil_append]
    · intro ws' h
      obtain ⟨w', r', hw, hrest, rfl⟩ := List.forall₂_cons_left_iff.mp h
      have hv : (half.decode (w' % 65536) : Flt K) = half.decode a ∧
          (half.decode (w' / 65536) : Flt K) = half.decode b := by
        rcases hw with rfl | rfl
        · have e1 : (a + 65536 * b) % 65536 = a := by omega
          have e2 : (a + 65536 * b) / 65536 = b := by omega
          rw [e1, e2]
          exact ⟨rfl, rfl⟩
        · exact quiet_halfs a b ha hb
      have h5' := h5 r' hrest
      simp only [unpackHalfs] at h5'
      simp only [unpackHalfs, List.map_cons, List.flatten_cons, List.cons_append, List.nil_append, hv.1, hv.2, h5']

example : packHalfs [0, 32001, 15360, 32641] = .ok [32001 * 65536, 15360 + 32641 * 65536] := by decide
example : quiet (15360 + 32641 * 65536) = 15360 + 32705 * 65536 := by decide

/-- C101 (partial): what is written for half images is read as the pixels rounded to halfs: in
the newer form for all images, in the older form for images with an even number of values.
Missing: the older form with an odd number of values, `C101_false`. -/
theorem C101_partial (version : ℕ) (pixels : List (Flt K))
    (h : 10800 ≤ version ∨ Even pixels.length) :
    ∃ data, packPixels version pixels = .ok data ∧
      (10800 ≤ version → data.length = pixels.length ∧ unpackPixels version data = pixels.map half.round) ∧
      (version < 10800 → 2 * data.length = pixels.length ∧
        ∀ data', Spec.Transported data data' → unpackPixels version data' = pixels.map half.round) := by
  by_cases hv : version < 10800
  · have he : Even pixels.length := h.resolve_left (by omega)
    obtain ⟨ws, h1, h2, -, -, h5⟩ := C101_patterns (K := K) (pixels.map half.encode)
      (by intro c hc; obtain ⟨x, -, rfl⟩ := List.mem_map.mp hc; exact half_encode_lt x) (by simpa using he)
    refine ⟨ws, by rw [packPixels, if_pos hv, h1], fun hn => absurd hv (by omega), fun _ => ⟨by simpa using h2, ?_⟩⟩
    intro data' hd
    rw [unpackPixels, if_pos hv, h5 data' hd, List.map_map]
    rfl
  · refine ⟨pixels.map half.encode, by rw [packPixels, if_neg hv], fun _ => ⟨by simp, ?_⟩, fun hn => absurd hn hv⟩
    rw [unpackPixels, if_neg hv, List.map_map]
    refine List.map_congr_left fun x _ => ?_
    simp only [Function.comp, Nat.mod_eq_of_lt (half_encode_lt x)]
    rfl

example : ∃ data, packPixels 10700 [Flt.fin (1 : ℚ), .fin (1/3), .nan, .inf true] = .ok data ∧ data.length = 2 :=
  ⟨[15360 + 65536 * half.encode (.fin (1/3 : ℚ)), half.encode (.nan : Flt ℚ) + 65536 * 64512], by decide +kernel, rfl⟩

/-- C101: in the older form, no half image with an odd number of values can be written. -/
theorem C101_odd (version : ℕ) (hv : version < 10800) (pixels : List (Flt K)) (ho : ¬ Even pixels.length) :
    packPixels version pixels = .error .valueError := by
  have key : ∀ (n : ℕ) (cs : List ℕ), cs.length = n → ¬ Even n → packHalfs cs = .error .valueError := by
    intro n
    induction n using Nat.strong_induction_on with
    | _ n ih =>
      intro cs hl hn
      match cs, hl with
      | [], hl => exact absurd (by rw [← hl]; simp) hn
      | [_], _ => rfl
      | a :: b :: r, hl =>
        simp only [List.length_cons] at hl
        have := ih r.length (by omega) r rfl (by
          rw [← hl, Nat.even_add_one, Nat.even_add_one, not_not] at hn; exact hn)
        rw [packHalfs, this]
        rfl
  rw [packPixels, if_pos hv]
  exact key _ _ rfl (by simpa using ho)

/-- C101: so the property is false: an image of one pixel with three channels. -/
theorem C101_false : ∃ (version : ℕ) (pixels : List (Flt ℚ)), pixels.map half.round = pixels ∧
    packPixels version pixels = .error .valueError :=
  ⟨10700, [.fin 0, .fin 1, .fin (1/2)], by decide +kernel, by decide +kernel⟩

/-- C101: single floats, `floatToHalfs` and `halfsToFloat`. -/
theorem C101_single (a b : Flt K) (w : ℕ)
    (hw : w = halfsToFloat a b ∨ w = quiet (halfsToFloat a b)) :
    floatToHalfs w = (half.round a, half.round b) := by
  have h := C101_patterns (K := K) [half.encode a, half.encode b]
    (by intro c hc; simp only [List.mem_cons, List.not_mem_nil, or_false] at hc
        rcases hc with rfl | rfl <;> exact half_encode_lt _) (by simp)
  obtain ⟨ws, h1, -, -, -, h5⟩ := h
  obtain rfl : ws = [halfsToFloat a b] := by
    simp only [packHalfs, py_ok_bind, py_pure] at h1
    exact (Except.ok.inj h1).symm
  have := h5 [w] (List.Forall₂.cons hw .nil)
  simp only [unpackHalfs, List.map_cons, List.map_nil, List.flatten_cons, List.flatten_nil, List.append_nil,
    List.cons.injEq, and_true] at this
  exact Prod.ext this.1 this.2

example : floatToHalfs (K := ℚ) (halfsToFloat (.fin 1 : Flt ℚ) (.fin (1/2))) = (.fin 1, .fin (1/2)) := by
  decide +kernel

end CLF
