import Verif.Model.Text
import Verif.Lemmas.Ieee
import Verif.Lemmas.Flt

/-! Lemmas about splitting, digits and number texts. -/

set_option linter.unusedSectionVars false

namespace CLF

/-! ### Whitespace -/

/-- No whitespace in the text. -/
def NoSpace (t : Txt) : Prop := ∀ c ∈ t, isSpace c = false

theorem NoSpace.append {s t : Txt} (hs : NoSpace s) (ht : NoSpace t) : NoSpace (s ++ t) := by
  intro c hc
  rcases List.mem_append.mp hc with h | h
  exacts [hs c h, ht c h]

theorem NoSpace.cons {c : Char} {t : Txt} (hc : isSpace c = false) (ht : NoSpace t) :
    NoSpace (c :: t) := by
  intro d hd
  rcases List.mem_cons.mp hd with h | h
  · rw [h]; exact hc
  · exact ht d h

theorem pieces_ne (t : Txt) : pieces t ≠ [] := by
  cases t with
  | nil => simp [pieces]
  | cons c cs =>
    rw [pieces]
    split
    · simp
    · split <;> simp

theorem pieces_word (w : Txt) (hw : NoSpace w) (rest : Txt) (c : Char) (hc : isSpace c = true) :
    pieces (w ++ c :: rest) = w :: pieces rest := by
  induction w with
  | nil => simp [pieces, hc]
  | cons x w ih =>
    have hx : isSpace x = false := hw x (by simp)
    rw [List.cons_append, pieces, hx, ih fun c hc => hw c (by simp [hc])]
    simp

theorem pieces_single (w : Txt) (hw : NoSpace w) : pieces w = [w] := by
  induction w with
  | nil => rfl
  | cons x w ih =>
    have hx : isSpace x = false := hw x (by simp)
    rw [pieces, hx, ih fun c hc => hw c (by simp [hc])]
    simp

theorem words_nil : words [] = [] := rfl

theorem words_space (c : Char) (t : Txt) (hc : isSpace c = true) : words (c :: t) = words t := by
  unfold words
  rw [pieces, hc]
  simp

theorem words_pad (k : ℕ) (t : Txt) : words (List.replicate k ' ' ++ t) = words t := by
  induction k with
  | zero => rfl
  | succ k ih => rw [List.replicate_succ, List.cons_append, words_space _ _ (by decide), ih]

theorem words_word (w : Txt) (hw : NoSpace w) (hne : w ≠ []) (c : Char) (hc : isSpace c = true)
    (rest : Txt) : words (w ++ c :: rest) = w :: words rest := by
  unfold words
  rw [pieces_word w hw rest c hc]
  simp [hne]

theorem words_single (w : Txt) (hw : NoSpace w) (hne : w ≠ []) : words w = [w] := by
  unfold words
  rw [pieces_single w hw]
  simp [hne]

/-- A joined list of padded words splits into the words, whatever whitespace follows. -/
theorem words_join (pad : ℕ) (ws : List Txt) (h : ∀ w ∈ ws, NoSpace w ∧ w ≠ []) (c : Char)
    (hc : isSpace c = true) (rest : Txt) :
    words (joinWith [' '] (ws.map (padLeft pad)) ++ c :: rest) = ws ++ words rest := by
  induction ws with
  | nil => simp [joinWith, words_space _ _ hc]
  | cons w ws ih =>
    obtain ⟨h1, h2⟩ := h w (by simp)
    have ih := ih fun w hw => h w (by simp [hw])
    cases ws with
    | nil =>
      simp only [List.map_cons, List.map_nil, joinWith, padLeft, List.append_assoc]
      rw [words_pad, words_word w h1 h2 c hc]
      rfl
    | cons w2 ws =>
      have e : joinWith [' '] ((w :: w2 :: ws).map (padLeft pad))
          = padLeft pad w ++ [' '] ++ joinWith [' '] ((w2 :: ws).map (padLeft pad)) := rfl
      rw [e]
      rw [padLeft]
      simp only [List.append_assoc, List.singleton_append]
      rw [words_pad, List.cons_append, words_word w h1 h2 ' ' (by decide)]
      rw [ih]
      simp

theorem dropWhile_space (k : ℕ) (t : Txt) (ht : NoSpace t) :
    (List.replicate k ' ' ++ t).dropWhile isSpace = t := by
  induction k with
  | zero =>
    cases t with
    | nil => rfl
    | cons c cs => simp [ht c (by simp)]
  | succ k ih =>
    rw [List.replicate_succ, List.cons_append, List.dropWhile_cons_of_pos (by decide), ih]

theorem strip_pad (k : ℕ) (t : Txt) (ht : NoSpace t) : strip (List.replicate k ' ' ++ t) = t := by
  unfold strip
  rw [dropWhile_space k t ht]
  have := dropWhile_space 0 t.reverse (fun c hc => ht c (by simpa using hc))
  simp only [List.replicate_zero, List.nil_append] at this
  rw [this, List.reverse_reverse]

theorem strip_word (t : Txt) (ht : NoSpace t) : strip t = t := strip_pad 0 t ht

/-! ### Digits -/

theorem decVal_digitChar : ∀ d < 10, decVal (Nat.digitChar d) = some d := by decide
theorem hexVal_digitChar : ∀ d < 16, hexVal (Nat.digitChar d) = some d := by decide
theorem digitChar_space : ∀ d < 16, isSpace (Nat.digitChar d) = false := by decide

/-- Positional value of a digit list, most significant first. -/
def posVal (b : ℕ) (ds : List ℕ) : ℕ := ds.foldl (fun a d => a * b + d) 0

theorem foldl_posVal (b : ℕ) (ds : List ℕ) (acc : ℕ) :
    ds.foldl (fun a d => a * b + d) acc = acc * b ^ ds.length + posVal b ds := by
  induction ds generalizing acc with
  | nil => simp [posVal]
  | cons d ds ih =>
    have e : posVal b (d :: ds) = (0 * b + d) * b ^ ds.length + posVal b ds := ih (0 * b + d)
    rw [List.foldl_cons, ih, e]
    simp only [List.length_cons, pow_succ]
    ring

theorem posVal_append (b : ℕ) (xs ys : List ℕ) :
    posVal b (xs ++ ys) = posVal b xs * b ^ ys.length + posVal b ys := by
  rw [posVal, List.foldl_append, foldl_posVal]; rfl

theorem posVal_singleton (b d : ℕ) : posVal b [d] = d := by simp [posVal]

theorem digitsAux_lt (b : ℕ) (hb : 0 < b) (k n : ℕ) : ∀ d ∈ digitsAux b k n, d < b := by
  induction k generalizing n with
  | zero => intro d hd; cases hd
  | succ k ih =>
    intro d hd
    rw [digitsAux] at hd
    split at hd
    · cases hd
    · rcases List.mem_append.mp hd with h | h
      · exact ih _ d h
      · rw [List.mem_singleton.mp h]; exact Nat.mod_lt _ hb

theorem posVal_digitsAux (b : ℕ) (hb : 2 ≤ b) (k n : ℕ) (h : n ≤ k) :
    posVal b (digitsAux b k n) = n := by
  induction k generalizing n with
  | zero => obtain rfl : n = 0 := by omega
            rfl
  | succ k ih =>
    rw [digitsAux]
    split
    · next h0 => rw [h0]; rfl
    · next h0 =>
      have : n / b ≤ k := by
        have : n / b < n := Nat.div_lt_self (by omega) (by omega)
        omega
      rw [posVal_append, ih _ this, posVal_singleton]
      simp only [List.length_singleton, pow_one]
      rw [Nat.mul_comm]; exact Nat.div_add_mod n b

theorem fixedDigits_length (b w n : ℕ) : (fixedDigits b w n).length = w := by
  induction w generalizing n with
  | zero => rfl
  | succ w ih => rw [fixedDigits, List.length_append, ih]; rfl

theorem fixedDigits_lt (b w n : ℕ) (hb : 0 < b) : ∀ d ∈ fixedDigits b w n, d < b := by
  induction w generalizing n with
  | zero => intro d hd; cases hd
  | succ w ih =>
    intro d hd
    rcases List.mem_append.mp hd with h | h
    · exact ih _ d h
    · rw [List.mem_singleton.mp h]; exact Nat.mod_lt _ hb

theorem posVal_fixedDigits (b w n : ℕ) : posVal b (fixedDigits b w n) = n % b ^ w := by
  induction w generalizing n with
  | zero => simp [fixedDigits, posVal, Nat.mod_one]
  | succ w ih =>
    rw [fixedDigits, posVal_append, ih, posVal_singleton]
    simp only [List.length_singleton, pow_one]
    rw [pow_succ', Nat.mod_mul, Nat.mul_comm b, Nat.add_comm]

/-- Reading back digit characters. -/
theorem readDigits_map (val : Char → Option ℕ) (b : ℕ) (ds : List ℕ)
    (h : ∀ d ∈ ds, val (Nat.digitChar d) = some d) (acc : ℕ) :
    readDigits val b acc (ds.map Nat.digitChar) = some (acc * b ^ ds.length + posVal b ds) := by
  rw [← foldl_posVal]
  induction ds generalizing acc with
  | nil => rfl
  | cons d ds ih =>
    rw [List.map_cons, readDigits, h d (by simp)]
    exact ih (fun x hx => h x (by simp [hx])) _

theorem readDigits_showFixed_hex (w n : ℕ) (h : n < 16 ^ w) :
    readDigits hexVal 16 0 (showFixed 16 w n) = some n := by
  rw [showFixed, readDigits_map hexVal 16 _ fun d hd => hexVal_digitChar d
    (fixedDigits_lt 16 w n (by norm_num) d hd), posVal_fixedDigits, Nat.mod_eq_of_lt h]
  simp

theorem showFixed_length (b w n : ℕ) : (showFixed b w n).length = w := by
  rw [showFixed, List.length_map, fixedDigits_length]

theorem showFixed_noSpace (b w n : ℕ) (hb : 0 < b) (hb' : b ≤ 16) : NoSpace (showFixed b w n) := by
  intro c hc
  obtain ⟨d, hd, rfl⟩ := List.mem_map.mp hc
  exact digitChar_space d (lt_of_lt_of_le (fixedDigits_lt b w n hb d hd) hb')

/-- Hex text of fixed width reads back. -/
theorem parseHex_showFixed (w n : ℕ) (h : n < 16 ^ w) : parseHex w (showFixed 16 w n) = .ok n := by
  rw [parseHex, if_pos (showFixed_length 16 w n), readDigits_showFixed_hex w n h]

/-! ### Decimal digit texts -/

/-- Only decimal digits. -/
def IsDig (t : Txt) : Prop := ∀ c ∈ t, (decVal c).isSome

/-- Value of a decimal digit text. -/
def numT (t : Txt) : ℕ := t.foldl (fun a c => a * 10 + (decVal c).getD 0) 0

theorem foldl_numT (t : Txt) (acc : ℕ) :
    t.foldl (fun a c => a * 10 + (decVal c).getD 0) acc = acc * 10 ^ t.length + numT t := by
  induction t generalizing acc with
  | nil => simp [numT]
  | cons d ds ih =>
    have e : numT (d :: ds) = (0 * 10 + (decVal d).getD 0) * 10 ^ ds.length + numT ds := ih _
    rw [List.foldl_cons, ih, e]
    simp only [List.length_cons, pow_succ]
    ring

theorem numT_append (s t : Txt) : numT (s ++ t) = numT s * 10 ^ t.length + numT t := by
  rw [numT, List.foldl_append, foldl_numT]; rfl

theorem readDigits_isDig (t : Txt) (h : IsDig t) (acc : ℕ) :
    readDigits decVal 10 acc t = some (acc * 10 ^ t.length + numT t) := by
  rw [← foldl_numT]
  induction t generalizing acc with
  | nil => rfl
  | cons c cs ih =>
    obtain ⟨d, hd⟩ := Option.isSome_iff_exists.mp (h c (by simp))
    rw [readDigits, hd, List.foldl_cons, hd]
    exact ih (fun x hx => h x (by simp [hx])) _

theorem isDig_map (ds : List ℕ) (h : ∀ d ∈ ds, d < 10) : IsDig (ds.map Nat.digitChar) := by
  intro c hc
  obtain ⟨d, hd, rfl⟩ := List.mem_map.mp hc
  rw [decVal_digitChar d (h d hd)]; rfl

theorem numT_map (ds : List ℕ) (h : ∀ d ∈ ds, d < 10) :
    numT (ds.map Nat.digitChar) = posVal 10 ds := by
  have h1 := readDigits_isDig _ (isDig_map ds h) 0
  have h2 := readDigits_map decVal 10 ds (fun d hd => decVal_digitChar d (h d hd)) 0
  rw [h1] at h2
  simpa using h2

theorem IsDig.append {s t : Txt} (hs : IsDig s) (ht : IsDig t) : IsDig (s ++ t) := by
  intro c hc
  rcases List.mem_append.mp hc with h | h
  exacts [hs c h, ht c h]

theorem isDig_zeros (k : ℕ) : IsDig (List.replicate k '0') := by
  intro c hc; rw [List.eq_of_mem_replicate hc]; rfl

theorem numT_zeros (k : ℕ) : numT (List.replicate k '0') = 0 := by
  induction k with
  | zero => rfl
  | succ k ih =>
    rw [List.replicate_succ']
    rw [numT_append, ih]; rfl

theorem isDig_showFixed (w n : ℕ) : IsDig (showFixed 10 w n) :=
  isDig_map _ (fixedDigits_lt 10 w n (by norm_num))

theorem numT_showFixed (w n : ℕ) : numT (showFixed 10 w n) = n % 10 ^ w := by
  rw [showFixed, numT_map _ (fixedDigits_lt 10 w n (by norm_num)), posVal_fixedDigits]

theorem isDig_showNat (n : ℕ) : IsDig (showNat n) := by
  unfold showNat
  split
  · intro c hc; rw [List.mem_singleton.mp hc]; rfl
  · exact isDig_map _ (digitsAux_lt 10 (by norm_num) n n)

theorem numT_showNat (n : ℕ) : numT (showNat n) = n := by
  unfold showNat
  split
  · next h => rw [h]; rfl
  · rw [numT_map _ (digitsAux_lt 10 (by norm_num) n n),
      posVal_digitsAux 10 (by norm_num) n n le_rfl]

theorem showNat_ne (n : ℕ) : showNat n ≠ [] := by
  unfold showNat
  split
  · simp
  · next h =>
    obtain ⟨k, rfl⟩ : ∃ k, n = k + 1 := ⟨n - 1, by omega⟩
    rw [digitsAux]
    simp

/-- The decimal digits are exactly these. -/
theorem decVal_some {c : Char} (h : (decVal c).isSome) :
    ∃ d < 10, c = Nat.digitChar d := by
  unfold decVal at h
  split at h
  · next hc =>
    have h1 : 48 ≤ c.toNat := hc.1
    have h2 : c.toNat ≤ 57 := hc.2
    refine ⟨c.toNat - 48, by omega, ?_⟩
    have : ∀ n, 48 ≤ n → n ≤ 57 → Nat.digitChar (n - 48) = Char.ofNat n := by
      intro n a b
      have : ∀ n < 58, 48 ≤ n → Nat.digitChar (n - 48) = Char.ofNat n := by decide
      exact this n (by omega) a
    rw [this _ h1 h2, Char.ofNat_toNat]
  · cases h

theorem IsDig.noSpace {t : Txt} (h : IsDig t) : NoSpace t := by
  intro c hc
  obtain ⟨d, hd, rfl⟩ := decVal_some (h c hc)
  exact digitChar_space d (by omega)

theorem parseNat_isDig (t : Txt) (h : IsDig t) (hne : t ≠ []) : parseNat t = .ok (numT t) := by
  unfold parseNat
  rw [strip_word t h.noSpace]
  cases t with
  | nil => exact absurd rfl hne
  | cons c cs => simp [readDigits_isDig _ h]

theorem parseNat_showNat (n : ℕ) : parseNat (showNat n) = .ok n := by
  rw [parseNat_isDig _ (isDig_showNat n) (showNat_ne n), numT_showNat]

theorem strip_pad' (n : ℕ) (t : Txt) (ht : NoSpace t) : strip (padLeft n t) = t := strip_pad _ t ht

/-! ### Decimal fractions -/

theorem spanDigits_eq (s t : Txt) (hs : IsDig s) (ht : ∀ c r, t = c :: r → decVal c = none) :
    spanDigits (s ++ t) = (s, t) := by
  unfold spanDigits
  induction s with
  | nil =>
    cases t with
    | nil => rfl
    | cons c r => simp [ht c r rfl]
  | cons c s ih =>
    have ih := ih fun x hx => hs x (by simp [hx])
    have hc := hs c (by simp)
    rw [List.cons_append, List.takeWhile_cons_of_pos (p := fun c => (decVal c).isSome) hc,
      List.dropWhile_cons_of_pos (p := fun c => (decVal c).isSome) hc]
    rw [Prod.mk.injEq] at ih ⊢
    exact ⟨by rw [ih.1], ih.2⟩

theorem parseDecimal_eq (ip fp tail r : Txt) (e : ℤ) (h1 : IsDig ip) (h2 : IsDig fp) (hne : ip ≠ [])
    (ht : ∀ c r, tail = c :: r → decVal c = none) (hf : takeFraction tail = (fp, r))
    (he : parseExp r = some e) :
    parseDecimal (ip ++ tail) = some (numT (ip ++ fp), e - fp.length) := by
  unfold parseDecimal
  rw [spanDigits_eq ip tail h1 ht]
  simp only [hf, he, hne, false_and, if_false]
  rw [readDigits_isDig _ (h1.append h2)]
  simp

theorem parseDecimal_point (ip fp : Txt) (h1 : IsDig ip) (h2 : IsDig fp) (hne : ip ≠ []) :
    parseDecimal (ip ++ '.' :: fp) = some (numT (ip ++ fp), -(fp.length : ℤ)) := by
  rw [parseDecimal_eq ip fp ('.' :: fp) [] 0 h1 h2 hne _ _ rfl, zero_sub]
  · intro c r h; rw [(List.cons.inj h).1.symm]; decide
  · have := spanDigits_eq fp [] h2 (by intro c r h; cases h)
    rw [List.append_nil] at this
    exact this

theorem showExp_eq (e : ℤ) : ∃ ds : Txt, IsDig ds ∧ ds ≠ [] ∧ numT ds = e.natAbs ∧
    showExp e = 'e' :: (if e < 0 then '-' else '+') :: ds := by
  by_cases h : e.natAbs < 10
  · refine ⟨'0' :: showNat e.natAbs, ?_, by simp, ?_, by rw [showExp, if_pos h]; rfl⟩
    · intro c hc
      rcases List.mem_cons.mp hc with rfl | hc
      · rfl
      · exact isDig_showNat _ c hc
    · have := numT_append ['0'] (showNat e.natAbs)
      rw [List.singleton_append] at this
      rw [this, numT_showNat]; simp [numT, decVal]
  · exact ⟨showNat e.natAbs, isDig_showNat _, showNat_ne _, numT_showNat _,
      by rw [showExp, if_neg h]; rfl⟩

theorem parseExp_showExp (e : ℤ) : parseExp (showExp e) = some e := by
  obtain ⟨ds, d1, d2, d3, d4⟩ := showExp_eq e
  rw [d4]
  have hv : takeSign ((if e < 0 then '-' else '+') :: ds) = (decide (e < 0), ds) := by
    by_cases he : e < 0
    · simp only [he, if_true, decide_true]; rfl
    · simp only [he, if_false, decide_false]; rfl
  rw [parseExp]
  simp only [true_or, if_true, hv, d2, if_false]
  rw [readDigits_isDig _ d1, d3]
  simp only [Nat.zero_mul, Nat.zero_add]
  congr 1
  by_cases he : e < 0
  · simp only [he, decide_true, if_true]; omega
  · simp only [he, decide_false, Bool.false_eq_true, if_false]; omega

theorem showExp_head (e : ℤ) : ∃ r, showExp e = 'e' :: r := by
  obtain ⟨ds, _, _, _, d4⟩ := showExp_eq e
  exact ⟨_, d4⟩

theorem parseDecimal_exp (ip fp : Txt) (h1 : IsDig ip) (h2 : IsDig fp) (hne : ip ≠ []) (e : ℤ) :
    parseDecimal (ip ++ (if fp = [] then [] else '.' :: fp) ++ showExp e)
      = some (numT (ip ++ fp), e - fp.length) := by
  obtain ⟨r, hr⟩ := showExp_head e
  have hh : ∀ c s, showExp e = c :: s → decVal c = none := by
    intro c s h; rw [hr] at h; rw [(List.cons.inj h).1.symm]; decide
  rw [List.append_assoc]
  refine parseDecimal_eq ip fp _ (showExp e) e h1 h2 hne ?_ ?_ (parseExp_showExp e)
  · intro c s h
    split at h
    · exact hh c s h
    · rw [List.cons_append] at h; rw [(List.cons.inj h).1.symm]; decide
  · split
    · next hf => rw [hf, hr]; rfl
    · exact spanDigits_eq fp (showExp e) h2 hh

end CLF
