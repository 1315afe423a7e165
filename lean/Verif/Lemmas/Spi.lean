import Verif.Spec.Files
import Verif.Lemmas.ArrayText
import Verif.Lemmas.Str12
import Verif.Lemmas.Loops

/-! Lemmas about the text of lookup table files. -/

set_option linter.unusedSectionVars false

namespace CLF

variable {K : Type} [Field K] [LinearOrder K] [IsStrictOrderedRing K] [FloorRing K]

/-! ### Lines -/

/-- No line break in the text. -/
def OneLine (t : Txt) : Prop := ∀ c ∈ t, c ≠ '\n' ∧ c ≠ '\r'

theorem NoSpace.oneLine {t : Txt} (h : NoSpace t) : OneLine t := by
  intro c hc
  have := h c hc
  constructor <;> (rintro rfl; revert this; decide)

theorem OneLine.append {s t : Txt} (hs : OneLine s) (ht : OneLine t) : OneLine (s ++ t) := by
  intro c hc
  rcases List.mem_append.mp hc with h | h
  exacts [hs c h, ht c h]

theorem OneLine.cons {c : Char} {t : Txt} (hc : c ≠ '\n' ∧ c ≠ '\r') (ht : OneLine t) :
    OneLine (c :: t) := by
  intro d hd
  rcases List.mem_cons.mp hd with h | h
  · rw [h]; exact hc
  · exact ht d h

theorem OneLine.flatten {l : List Txt} (h : ∀ t ∈ l, OneLine t) : OneLine l.flatten := by
  intro c hc
  obtain ⟨t, ht, hc⟩ := List.mem_flatten.mp hc
  exact h t ht c hc

theorem OneLine.spaces (k : ℕ) : OneLine (List.replicate k ' ') := by
  intro c hc
  rw [List.eq_of_mem_replicate hc]
  decide

theorem OneLine.join {l : List Txt} (h : ∀ t ∈ l, OneLine t) : OneLine (joinWith [' '] l) := by
  induction l with
  | nil => intro c hc; simp [joinWith] at hc
  | cons a l ih =>
    cases l with
    | nil => exact h a (by simp)
    | cons b l =>
      exact ((h a (by simp)).append (OneLine.cons (by decide) (by intro c hc; simp at hc))).append
        (ih fun t ht => h t (by simp [ht]))

theorem splitLines_line (l r : Txt) (hl : OneLine l) :
    splitLines (l ++ '\n' :: r) = l :: splitLines r := by
  induction l with
  | nil => rw [List.nil_append, splitLines]; simp; simp
  | cons c l ih =>
    have hc := hl c (by simp)
    rw [List.cons_append, splitLines, if_neg (by simp [hc]), ih fun d hd => hl d (by simp [hd])]
    intro r' h1
    exact absurd h1 hc.2

/-- Lines, each ended by a newline. -/
def unlines (ls : List Txt) : Txt := (ls.map (· ++ ['\n'])).flatten

theorem splitLines_unlines (ls : List Txt) (h : ∀ l ∈ ls, OneLine l) :
    splitLines (unlines ls) = ls := by
  induction ls with
  | nil => rfl
  | cons l ls ih =>
    have := splitLines_line l (unlines ls) (h l (by simp))
    rw [show unlines (l :: ls) = l ++ '\n' :: unlines ls by simp [unlines], this,
      ih fun l hl => h l (by simp [hl])]

theorem unlines_append (a b : List Txt) : unlines (a ++ b) = unlines a ++ unlines b := by
  simp [unlines]

/-- Words, each after a space. -/
theorem words_spaced (ws : List Txt) (h : ∀ w ∈ ws, NoSpace w ∧ w ≠ []) :
    words ((ws.map fun w => ' ' :: w).flatten) = ws := by
  cases ws with
  | nil => rfl
  | cons w ws =>
    have e : ∀ (ws : List Txt) (w : Txt), ((w :: ws).map fun w => ' ' :: w).flatten
        = ' ' :: joinWith [' '] (w :: ws) := by
      intro ws
      induction ws with
      | nil => intro w; simp [joinWith]
      | cons v ws ih => intro w; rw [List.map_cons, List.flatten_cons, ih v]; simp [joinWith]
    rw [e, words_space _ _ (by decide), words_joined _ h]

/-! ### Six decimals -/

/-- Value printed by `"%f"`. -/
def dec6 : SFlt K → SFlt K
  | .fin neg m => .fin neg (((Fmt.rne (m * 10 ^ 6)).toNat : K) / 10 ^ 6)
  | x => x

theorem show6_fin (neg : Bool) (m : K) : show6 (.fin neg m) = signTxt neg ++
    (showNat ((Fmt.rne (m * 10 ^ 6)).toNat / 10 ^ 6) ++
      '.' :: showFixed 10 6 ((Fmt.rne (m * 10 ^ 6)).toNat % 10 ^ 6)) := by
  simp [show6]

theorem show6_noSpace (x : SFlt K) : NoSpace (show6 x) := by
  cases x with
  | nan => show NoSpace "nan".toList; intro c hc; revert c; decide
  | inf neg =>
    refine (signTxt_noSpace neg).append ?_
    intro c hc; revert c; decide
  | fin neg m =>
    rw [show6_fin]
    exact (signTxt_noSpace neg).append ((isDig_showNat _).noSpace.append
      (NoSpace.cons (by decide) (isDig_showFixed _ _).noSpace))

theorem show6_ne (x : SFlt K) : show6 x ≠ [] := by
  cases x with
  | nan => simp [show6]
  | inf neg => simp [show6]
  | fin neg m => simp [show6_fin]

theorem parseFloat_show6 (x : SFlt K) : parseFloat (show6 x) = .ok (dec6 x) := by
  cases x with
  | nan => exact parseFloat_nan
  | inf neg => exact parseFloat_inf neg
  | fin neg m =>
    rw [show6_fin, parseFloat_dec neg _ _ _
      ((isDig_showNat _).noSpace.append (NoSpace.cons (by decide) (isDig_showFixed _ _).noSpace))
      (((isDig_showNat _).head (showNat_ne _)).append _)
      (parseDecimal_point _ _ (isDig_showNat _) (isDig_showFixed _ _) (showNat_ne _))]
    rw [numT_append, numT_showNat, numT_showFixed, showFixed_length, Nat.mod_mod, dec6]
    have : (Fmt.rne (m * 10 ^ 6)).toNat / 10 ^ 6 * 10 ^ 6 + (Fmt.rne (m * 10 ^ 6)).toNat % 10 ^ 6
        = (Fmt.rne (m * 10 ^ 6)).toNat := by
      rw [Nat.mul_comm]; exact Nat.div_add_mod _ _
    rw [this]
    congr 2
    rw [div_eq_mul_inv, zpow_neg, zpow_natCast]

/-- What comes back of a number printed by `"%f"`. -/
def back6 (x : Flt K) : Flt K := (dec6 (.ofFlt x)).toFlt

theorem readFlt_show6 (x : Flt K) : readFlt (show6 (.ofFlt x)) = .ok (back6 x) := by
  unfold readFlt
  rw [parseFloat_show6]
  rfl

theorem back6_near (x : Flt K) : Spec.Near6 x (back6 x) := by
  cases x with
  | nan => trivial
  | inf neg => exact rfl
  | fin x =>
    show |(if decide (x < 0) = true then -(((Fmt.rne (|x| * 10 ^ 6)).toNat : K) / 10 ^ 6) else
        ((Fmt.rne (|x| * 10 ^ 6)).toNat : K) / 10 ^ 6) - x| ≤ _ ∧ ((∃ n : ℤ, x = n / 10 ^ 6) →
      (if decide (x < 0) = true then -(((Fmt.rne (|x| * 10 ^ 6)).toNat : K) / 10 ^ 6) else
        ((Fmt.rne (|x| * 10 ^ 6)).toNat : K) / 10 ^ 6) = x)
    have h0 : (0 : K) ≤ |x| * 10 ^ 6 := by positivity
    have hr : 0 ≤ Fmt.rne (|x| * 10 ^ 6) := Fmt.le_rne (by simpa using h0)
    have hc : ((Fmt.rne (|x| * 10 ^ 6)).toNat : K) = (Fmt.rne (|x| * 10 ^ 6) : K) := by
      have := Int.toNat_of_nonneg hr
      exact_mod_cast congrArg (Int.cast (R := K)) this
    have hp : (0 : K) < 10 ^ 6 := by positivity
    rw [hc]
    have hs : (if decide (x < 0) = true then -((Fmt.rne (|x| * 10 ^ 6) : K) / 10 ^ 6) else
        (Fmt.rne (|x| * 10 ^ 6) : K) / 10 ^ 6) - x
        = (if x < 0 then -1 else 1) * ((Fmt.rne (|x| * 10 ^ 6) - |x| * 10 ^ 6) / 10 ^ 6) := by
      by_cases hx : x < 0
      · simp only [hx, decide_true, if_true, abs_of_neg hx]; field_simp; ring
      · simp only [hx, decide_false, Bool.false_eq_true, if_false, abs_of_nonneg (not_lt.mp hx)]
        field_simp
    constructor
    · rw [hs, abs_mul]
      have : |(if x < 0 then -1 else 1 : K)| = 1 := by split <;> simp
      rw [this, one_mul, abs_div, abs_of_pos hp]
      exact div_le_div_of_nonneg_right (Fmt.rne_near _) hp.le
    · rintro ⟨n, hn⟩
      have he : |x| * 10 ^ 6 = ((|n| : ℤ) : K) := by
        rw [hn, abs_div, abs_of_pos hp, div_mul_cancel₀ _ hp.ne', Int.cast_abs]
      rw [← sub_eq_zero, hs, he, rne_intCast, sub_self, zero_div, mul_zero]

/-! ### Number texts -/

theorem Spec.NumText.word {fmt : Flt K → Txt} {back : Flt K → Flt K} (h : Spec.NumText fmt back)
    (x : Flt K) : NoSpace (fmt x) ∧ fmt x ≠ [] := ⟨h.noSpace x, h.nonempty x⟩

theorem Spec.NumText.mapM {fmt : Flt K → Txt} {back : Flt K → Flt K} (h : Spec.NumText fmt back)
    (vs : List (Flt K)) : (vs.map fmt).mapM readFlt = .ok (vs.map back) := by
  induction vs with
  | nil => rfl
  | cons v vs ih => rw [List.map_cons, py_mapM_cons, h.read, py_ok_bind, ih]; rfl

/-- The texts of Python floats. -/
theorem numText_str12 : Spec.NumText (K := K) (fun x => str12 (.ofFlt x))
    (fun x => (dec12 (.ofFlt x)).toFlt) where
  noSpace x := (str12_word _ (SFlt.valid_ofFlt x)).1
  nonempty x := (str12_word _ (SFlt.valid_ofFlt x)).2.1
  read x := by
    unfold readFlt
    rw [parseFloat_str12 _ (SFlt.valid_ofFlt x)]
    rfl

/-- A number text is none of the words with a meaning. -/
theorem Spec.NumText.ne {fmt : Flt K → Txt} {back : Flt K → Flt K} (h : Spec.NumText fmt back)
    (x : Flt K) (t : Txt) (ht : parseFloat (K := K) t = .error .valueError) : fmt x ≠ t := by
  intro e
  have := h.read x
  rw [e, readFlt, ht] at this
  cases this

/-! ### One-dimensional files -/

/-- The line of a row. -/
def spi1dRow (fmt : Flt K → Txt) (vs : List (Flt K)) : Txt :=
  List.replicate 8 ' ' ++ (vs.map fun v => ' ' :: fmt v).flatten

theorem spi1dLoop_row {fmt : Flt K → Txt} {back : Flt K → Flt K} (h : Spec.NumText fmt back)
    (s : Spi1d K) (vs : List (Flt K)) (hvs : vs ≠ []) (rest : List Txt) :
    spi1dLoop s (spi1dRow fmt vs :: rest)
      = spi1dLoop { s with samples := s.samples ++ vs.map back } rest := by
  have hw : words (spi1dRow fmt vs) = vs.map fmt := by
    rw [spi1dRow, words_pad]
    have := words_spaced (vs.map fmt) (by
      intro w hw
      obtain ⟨v, _, rfl⟩ := List.mem_map.mp hw
      exact h.word v)
    rwa [List.map_map] at this
  obtain ⟨v, vs', rfl⟩ := List.exists_cons_of_ne_nil hvs
  have hg : pyGet ((v :: vs').map fmt) 0 = .ok (fmt v) := rfl
  rw [spi1dLoop]
  simp only [hw, hg, py_ok_bind, h.mapM]
  rw [if_neg (h.ne v _ rfl), if_neg (h.ne v _ rfl), if_neg (h.ne v _ rfl), if_neg (h.ne v _ rfl),
    if_neg (by rintro (e | e); exacts [h.ne v _ rfl e, h.ne v _ rfl e])]

theorem spi1dLoop_rows {fmt : Flt K → Txt} {back : Flt K → Flt K} (h : Spec.NumText fmt back)
    (rows : List (List (Flt K))) (hr : ∀ r ∈ rows, r ≠ []) (s : Spi1d K) (rest : List Txt) :
    spi1dLoop s (rows.map (spi1dRow fmt) ++ rest)
      = spi1dLoop { s with samples := s.samples ++ rows.flatten.map back } rest := by
  induction rows generalizing s with
  | nil => simp
  | cons r rows ih =>
    rw [List.map_cons, List.cons_append, spi1dLoop_row h s r (hr r (by simp)),
      ih fun r h => hr r (by simp [h])]
    simp

end CLF
