import Verif.Lemmas.ArrayText
import Verif.Lemmas.Str12

/-! # Index maps as text -/

set_option linter.unusedSectionVars false

namespace CLF

variable {K : Type} [Field K] [LinearOrder K] [IsStrictOrderedRing K] [FloorRing K]

theorem splitOn_single (c : Char) (t : Txt) (h : c ∉ t) : splitOn c t = [t] := by
  induction t with
  | nil => rfl
  | cons d t ih =>
    have h1 : ¬ d = c := fun e => h (by simp [e])
    have h2 : c ∉ t := fun e => h (by simp [e])
    simp [splitOn, h1, ih h2]

theorem splitOn_pair (c : Char) (s t : Txt) (hs : c ∉ s) (ht : c ∉ t) :
    splitOn c (s ++ [c] ++ t) = [s, t] := by
  induction s with
  | nil => simp [splitOn, splitOn_single c t ht]
  | cons d s ih =>
    have h1 : ¬ d = c := fun e => hs (by simp [e])
    have h2 : c ∉ s := fun e => hs (by simp [e])
    have := ih h2
    simp only [List.cons_append, splitOn, if_neg h1]
    rw [this]

/-- Truncated value of an output. -/
def truncVal (x : Flt K) : ℤ := match x with
  | .fin v => if v < 0 then -⌊-v⌋ else ⌊v⌋
  | _ => 0

theorem truncInt_ok {x : Flt K} {n : ℤ} (h : truncInt x = .ok n) : n = truncVal x := by
  cases x with
  | fin v => exact (Except.ok.inj h).symm
  | inf _ => cases h
  | nan => cases h

theorem pairTxt_word {p : Flt K × Flt K} {t : Txt} (h : pairTxt p = .ok t) :
    NoSpace t ∧ t ≠ [] := by
  unfold pairTxt at h
  obtain ⟨n, h1, h2⟩ := py_bind_eq_ok.mp h
  rw [← Except.ok.inj h2]
  have w := str12_word _ (SFlt.valid_ofFlt p.1)
  refine ⟨(w.1.append ?_).append (showInt_word n).1, by simp⟩
  intro c hc; revert c; decide

theorem pairTxt_parts {p : Flt K × Flt K} {t : Txt} (h : pairTxt p = .ok t) :
    readPairPart 0 t = .ok (dec12 (SFlt.ofFlt p.1)).toFlt ∧
    readPairPart 1 t = .ok (.fin ((truncVal p.2 : ℤ) : K)) := by
  unfold pairTxt at h
  obtain ⟨n, h1, h2⟩ := py_bind_eq_ok.mp h
  rw [← Except.ok.inj h2, truncInt_ok h1]
  have w := str12_word _ (SFlt.valid_ofFlt p.1)
  have hs := splitOn_pair '@' _ _ w.2.2 (showInt_word (truncVal p.2)).2
  constructor
  · unfold readPairPart
    rw [hs]
    show (parseFloat _ >>= _) = _
    rw [parseFloat_str12 _ (SFlt.valid_ofFlt p.1)]
    rfl
  · unfold readPairPart
    rw [hs]
    show (parseFloat _ >>= _) = _
    rw [parseFloat_showInt]
    show Except.ok (Flt.fin _) = _
    congr 2
    by_cases h : truncVal p.2 < 0
    · simp only [h, decide_true, if_true]
      have : ((truncVal p.2).natAbs : ℤ) = -truncVal p.2 := by omega
      have h3 : (((truncVal p.2).natAbs : ℤ) : K) = ((-truncVal p.2 : ℤ) : K) := by rw [this]
      rw [Int.cast_natCast, Int.cast_neg] at h3
      rw [h3, neg_neg]
    · simp only [h, decide_false, Bool.false_eq_true, if_false]
      have : ((truncVal p.2).natAbs : ℤ) = truncVal p.2 := by omega
      have h3 : (((truncVal p.2).natAbs : ℤ) : K) = ((truncVal p.2 : ℤ) : K) := by rw [this]
      rwa [Int.cast_natCast] at h3

theorem joinWith_ne (ws : List Txt) (h : ∀ w ∈ ws, w ≠ []) (hne : ws ≠ []) :
    joinWith [' '] ws ≠ [] := by
  match ws with
  | [] => exact absurd rfl hne
  | [w] => exact h w (by simp)
  | w :: v :: ws =>
    rw [joinWith]
    · simp
    · simp

/-- Everything about reading a written index map. -/
theorem IndexMap.read_write {m : IndexMap K} {x : Xml} (hw : m.write = .ok x)
    (hne : m.inputs ≠ []) (init : IndexMap K) :
    IndexMap.read init x.reparse = .ok ⟨m.dimension,
      m.inputs.map fun v => (dec12 (SFlt.ofFlt v)).toFlt,
      m.outputs.map fun v => .fin ((truncVal v : ℤ) : K)⟩ := by
  unfold IndexMap.write at hw
  obtain ⟨ts, h1, h2⟩ := py_bind_eq_ok.mp hw
  by_cases hl : m.inputs.length = m.outputs.length
  · rw [if_neg (by simpa using hl)] at h2
    rw [← Except.ok.inj h2]
    have hf := py_mapM_eq_ok.mp h1
    have hwords : ∀ w ∈ ts, NoSpace w ∧ w ≠ [] := by
      intro w hw
      obtain ⟨p, _, hp⟩ : ∃ p ∈ m.inputs.zip m.outputs, pairTxt p = .ok w := by
        clear h1 h2
        generalize m.inputs.zip m.outputs = l at hf ⊢
        induction hf with
        | nil => cases hw
        | cons h _ ih =>
          rcases List.mem_cons.mp hw with rfl | hw
          · exact ⟨_, by simp, h⟩
          · obtain ⟨p, hp, h⟩ := ih hw
            exact ⟨p, by simp [hp], h⟩
      exact pairTxt_word hp
    have hts : ts ≠ [] := by
      rintro rfl
      have := hf.length_eq
      rw [List.length_zip] at this
      have : m.inputs.length = 0 := by rw [List.length_nil] at this; omega
      exact hne (List.length_eq_zero_iff.mp this)
    have hempty : String.ofList (joinWith [' '] ts) ≠ "" := by
      intro h
      apply joinWith_ne ts (fun w hw => (hwords w hw).2) hts
      have := congrArg String.toList h
      simpa using this
    have hin : ts.mapM (readPairPart (K := K) 0)
        = .ok ((m.inputs.zip m.outputs).map fun p => (dec12 (SFlt.ofFlt p.1)).toFlt) := by
      clear h1 h2 hwords hts hempty
      generalize m.inputs.zip m.outputs = l at hf ⊢
      induction hf with
      | nil => rfl
      | cons h _ ih => rw [py_mapM_cons, (pairTxt_parts h).1, ih]; rfl
    have hout : ts.mapM (readPairPart (K := K) 1)
        = .ok ((m.inputs.zip m.outputs).map fun p => .fin ((truncVal p.2 : ℤ) : K)) := by
      clear h1 h2 hwords hts hempty hin
      generalize m.inputs.zip m.outputs = l at hf ⊢
      induction hf with
      | nil => rfl
      | cons h _ ih => rw [py_mapM_cons, (pairTxt_parts h).2, ih]; rfl
    have hm1 : (m.inputs.zip m.outputs).map (fun p => (dec12 (SFlt.ofFlt p.1)).toFlt)
        = m.inputs.map fun v => (dec12 (SFlt.ofFlt v)).toFlt := by
      conv_rhs => rw [← List.map_fst_zip (le_of_eq hl)]
      rw [List.map_map]; rfl
    have hm2 : (m.inputs.zip m.outputs).map (fun p => Flt.fin ((truncVal p.2 : ℤ) : K))
        = m.outputs.map fun v => .fin ((truncVal v : ℤ) : K) := by
      conv_rhs => rw [← List.map_snd_zip (le_of_eq hl.symm)]
      rw [List.map_map]; rfl
    show IndexMap.read init (.mk "IndexMap" _ (Xml.normText (some _)) _) = _
    rw [Xml.normText, if_neg hempty]
    show (parseNat (String.ofList (showNat m.dimension)).toList >>= fun dim => _) = _
    rw [String.toList_ofList, parseNat_showNat, py_ok_bind]
    simp only [Xml.text, String.toList_ofList]
    rw [words_joined ts hwords, hin, py_ok_bind, hout, py_ok_bind, hm1, hm2]
    rfl
  · rw [if_pos hl] at h2
    cases h2

theorem IndexMap.write_ok (m : IndexMap K) (hl : m.inputs.length = m.outputs.length)
    (ho : ∀ v ∈ m.outputs, ∃ r, v = .fin r) : ∃ x, m.write = .ok x := by
  have : ∀ l : List (Flt K × Flt K), (∀ p ∈ l, p.2 ∈ m.outputs) → ∃ ts, l.mapM pairTxt = .ok ts := by
    intro l hlm
    induction l with
    | nil => exact ⟨_, rfl⟩
    | cons p l ih =>
      obtain ⟨ts, hts⟩ := ih fun q hq => hlm q (by simp [hq])
      obtain ⟨r, hr⟩ := ho p.2 (hlm p (by simp))
      rw [py_mapM_cons, hts, pairTxt, hr]
      exact ⟨_, rfl⟩
  obtain ⟨ts, hts⟩ := this _ fun p hp => (List.of_mem_zip hp).2
  unfold IndexMap.write
  rw [hts, py_ok_bind, if_neg (by simpa using hl)]
  exact ⟨_, rfl⟩

/-- The value read for an input of twelve digits is the input. -/
theorem dec12_digits (v : K) (h : ∃ (n : ℕ) (k : ℤ), n < 10 ^ 12 ∧ (v = n * 10 ^ k ∨ v = -(n * 10 ^ k))) :
    (dec12 (SFlt.ofFlt (.fin v))).toFlt = .fin v := by
  obtain ⟨n, k, hn, hv⟩ := h
  have hab : |v| = n * 10 ^ k := by
    have : (0 : K) ≤ n * 10 ^ k := mul_nonneg (Nat.cast_nonneg n) (ten_zpow_pos k).le
    rcases hv with rfl | rfl
    · exact abs_of_nonneg this
    · rw [abs_neg]; exact abs_of_nonneg this
  have key : dec12 (SFlt.ofFlt (.fin v)) = SFlt.ofFlt (.fin v) := by
    show dec12 (.fin (decide (v < 0)) |v|) = .fin (decide (v < 0)) |v|
    rw [dec12]
    split
    · next h => rw [h]
    · next h =>
      have hn0 : 0 < n := by
        rcases Nat.eq_zero_or_pos n with rfl | h'
        · rw [hab] at h; simp at h
        · exact h'
      rw [hab, sig12_exact n k hn hn0]
  rw [key]
  exact SFlt.toFlt_ofFlt _

theorem dec12_near (v : K) : ∃ w, (dec12 (SFlt.ofFlt (.fin v))).toFlt = .fin w ∧
    |w - v| ≤ 1 / 2 / 10 ^ 11 * |v| := by
  by_cases h0 : v = 0
  · refine ⟨0, ?_, by simp [h0]⟩
    subst h0
    exact dec12_digits 0 ⟨0, 0, by norm_num, .inl (by simp)⟩
  · have hp : 0 < |v| := abs_pos.mpr h0
    obtain ⟨-, -, h3⟩ := sig12_facts |v| hp
    have hlog : (10 : K) ^ (Int.log 10 |v| - 11) ≤ |v| / 10 ^ 11 := by
      rw [zpow_sub₀ (by norm_num)]
      have : (10 : K) ^ Int.log 10 |v| ≤ |v| := by
        have := Int.zpow_log_le_self (b := 10) (by norm_num) hp
        exact_mod_cast this
      norm_num
      linarith
    set q : K := ((sig12 |v|).2 : K) * 10 ^ ((sig12 |v|).1 - 11) with hq
    have hq0 : |q - (|v|)| ≤ 1 / 2 / 10 ^ 11 * |v| := by
      refine h3.trans ?_
      have := mul_le_mul_of_nonneg_left hlog (by norm_num : (0 : K) ≤ 1 / 2)
      refine this.trans (le_of_eq ?_)
      ring1
    have e : dec12 (SFlt.ofFlt (.fin v)) = .fin (decide (v < 0)) q := by
      show dec12 (.fin (decide (v < 0)) |v|) = _
      rw [dec12, if_neg hp.ne']
    rw [e]
    refine ⟨_, rfl, ?_⟩
    by_cases hv : v < 0
    · simp only [hv, decide_true, if_true]
      rw [abs_of_neg hv] at hq0 ⊢
      have : |-q - v| = |q - -v| := by rw [← abs_neg]; congr 1; ring
      rw [this]; exact hq0
    · simp only [hv, decide_false, Bool.false_eq_true, if_false]
      rw [abs_of_nonneg (not_lt.mp hv)] at hq0 ⊢
      exact hq0

end CLF
