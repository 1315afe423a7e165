import Verif.Lemmas.FloatText
import Verif.Spec.Numerals
import Mathlib.Data.List.TakeWhile

/-! # Number texts and `parseFloat` -/

set_option linter.unusedSectionVars false

namespace CLF

variable {K : Type} [Field K] [LinearOrder K] [IsStrictOrderedRing K] [FloorRing K]

theorem blank_iff (c : Char) : Spec.Blank c ↔ isSpace c = true := by
  simp [Spec.Blank, isSpace, or_assoc]

theorem digit_iff (c : Char) : Spec.Digit c ↔ (decVal c).isSome = true := by
  constructor
  · intro h
    have : ∀ c ∈ "0123456789".toList, (decVal c).isSome = true := by decide
    exact this c h
  · intro h
    obtain ⟨d, hd, rfl⟩ := decVal_some h
    have : ∀ d < 10, Nat.digitChar d ∈ "0123456789".toList := by decide
    exact this d hd

theorem isDig_iff (t : Txt) : (∀ d ∈ t, Spec.Digit d) ↔ IsDig t :=
  forall_congr' fun _ => forall_congr' fun _ => digit_iff _

theorem digitsVal_eq (t : Txt) (h : IsDig t) : Spec.digitsVal t = numT t := by
  induction t with
  | nil => rfl
  | cons c r ih =>
    have e : numT (c :: r) = (0 * 10 + (decVal c).getD 0) * 10 ^ r.length + numT r := by
      rw [← foldl_numT]; rfl
    rw [e, Spec.digitsVal, ih fun x hx => h x (by simp [hx])]
    have hc := h c (by simp)
    unfold decVal at hc ⊢
    split at hc
    · next hc' => simp [hc']
    · cases hc

/-! ### Blanks -/

theorem dropWhile_blanks (pre t : Txt) (h : ∀ c ∈ pre, isSpace c = true)
    (ht : ∀ c r, t = c :: r → isSpace c = false) : (pre ++ t).dropWhile isSpace = t := by
  induction pre with
  | nil =>
    cases t with
    | nil => rfl
    | cons c r => rw [List.nil_append, List.dropWhile_cons_of_neg]; simp [ht c r rfl]
  | cons c pre ih =>
    rw [List.cons_append, List.dropWhile_cons_of_pos (h c (by simp))]
    exact ih fun x hx => h x (by simp [hx])

theorem strip_blanks (pre t post : Txt) (h1 : ∀ c ∈ pre, isSpace c = true)
    (h2 : ∀ c ∈ post, isSpace c = true) (ht : NoSpace t) (hne : t ≠ []) :
    strip (pre ++ t ++ post) = t := by
  unfold strip
  rw [List.append_assoc, dropWhile_blanks pre _ h1, List.reverse_append, dropWhile_blanks,
    List.reverse_reverse]
  · intro c hc; exact h2 c (List.mem_reverse.mp hc)
  · intro c r h
    exact ht c (List.mem_reverse.mp (by rw [h]; simp))
  · intro c r h
    cases t with
    | nil => exact absurd rfl hne
    | cons d t => rw [(List.cons.inj h).1.symm]; exact ht d (by simp)

theorem dropWhile_split (t : Txt) : ∃ pre, (∀ c ∈ pre, isSpace c = true) ∧
    t = pre ++ t.dropWhile isSpace :=
  ⟨t.takeWhile isSpace, fun _ h => List.mem_takeWhile_imp h, (List.takeWhile_append_dropWhile).symm⟩

theorem strip_split (t : Txt) : ∃ pre post, (∀ c ∈ pre, isSpace c = true) ∧
    (∀ c ∈ post, isSpace c = true) ∧ t = pre ++ strip t ++ post := by
  obtain ⟨pre, h1, h2⟩ := dropWhile_split t
  obtain ⟨post, h3, h4⟩ := dropWhile_split (t.dropWhile isSpace).reverse
  refine ⟨pre, post.reverse, h1, fun c hc => h3 c (List.mem_reverse.mp hc), ?_⟩
  have h5 := congrArg List.reverse h4
  rw [List.reverse_reverse, List.reverse_append] at h5
  rw [List.append_assoc]
  exact h2.trans (congrArg (pre ++ ·) h5)

/-! ### Signs -/

theorem takeSign_sign {s w : Txt} {neg : Bool} (h : Spec.SignText s neg)
    (hw : ∀ c r, w = c :: r → c ≠ '-' ∧ c ≠ '+') : takeSign (s ++ w) = (neg, w) := by
  cases h with
  | none =>
    cases w with
    | nil => rfl
    | cons c r =>
      obtain ⟨h1, h2⟩ := hw c r rfl
      show takeSign (c :: r) = _
      unfold takeSign
      split
      · next h => exact absurd (List.cons.inj h).1 h1
      · next h => exact absurd (List.cons.inj h).1 h2
      · rfl
  | plus => rfl
  | minus => rfl

theorem takeSign_split (t : Txt) : ∃ s, Spec.SignText s (takeSign t).1 ∧ t = s ++ (takeSign t).2 := by
  unfold takeSign
  split
  · exact ⟨['-'], .minus, rfl⟩
  · exact ⟨['+'], .plus, rfl⟩
  · exact ⟨[], .none, rfl⟩

theorem digit_not_sign {c : Char} (h : (decVal c).isSome = true) : c ≠ '-' ∧ c ≠ '+' :=
  ⟨by rintro rfl; revert h; decide, by rintro rfl; revert h; decide⟩

theorem readDigits_none (t : Txt) (n acc : ℕ) (h : readDigits decVal 10 acc t = some n) : IsDig t := by
  induction t generalizing acc with
  | nil => intro c hc; cases hc
  | cons c r ih =>
    rw [readDigits] at h
    cases hc : decVal c with
    | none => rw [hc] at h; cases h
    | some d =>
      rw [hc] at h
      intro x hx
      rcases List.mem_cons.mp hx with rfl | hx
      · rw [hc]; rfl
      · exact ih _ h x hx

/-! ### Exponents -/

theorem parseExp_iff (t : Txt) (e : ℤ) : parseExp t = some e ↔ Spec.ExpText t e := by
  constructor
  · intro h
    cases t with
    | nil => cases h; exact .none
    | cons c r =>
      unfold parseExp at h
      simp only at h
      by_cases hc : c = 'e' ∨ c = 'E'
      · rw [if_pos hc] at h
        obtain ⟨s, hs, hr⟩ := takeSign_split r
        generalize takeSign r = p at h hs hr
        obtain ⟨neg, w⟩ := p
        simp only at h hs hr
        by_cases hw : w = []
        · rw [if_pos hw] at h; cases h
        · rw [if_neg hw] at h
          cases hd : readDigits decVal 10 0 w with
          | none => rw [hd] at h; cases h
          | some n =>
            rw [hd] at h
            have hdig := readDigits_none w n 0 hd
            rw [readDigits_isDig w hdig, zero_mul, zero_add] at hd
            rw [hr]
            have hv := digitsVal_eq w hdig
            have he : e = if neg then -(Spec.digitsVal w : ℤ) else Spec.digitsVal w := by
              rw [hv, Option.some.inj hd]; exact (Option.some.inj h).symm
            rw [he]
            exact .some (by rcases hc with rfl | rfl <;> simp) hs hw ((isDig_iff w).mpr hdig)
      · rw [if_neg hc] at h; cases h
  · intro h
    cases h with
    | none => rfl
    | @some c s ds neg hc hs hne hd =>
      have hdig := (isDig_iff ds).mp hd
      have hc' : c = 'e' ∨ c = 'E' := by simpa using hc
      unfold parseExp
      simp only
      rw [if_pos hc', takeSign_sign hs]
      · simp only
        rw [if_neg hne, readDigits_isDig ds hdig, zero_mul, zero_add, digitsVal_eq ds hdig]
      · rintro c r rfl
        exact digit_not_sign (hdig c (by simp))

theorem expText_head {x : Txt} {e : ℤ} (h : Spec.ExpText x e) (c : Char) (r : Txt) (hx : x = c :: r) :
    c = 'e' ∨ c = 'E' := by
  cases h with
  | none => cases hx
  | some hc => rw [← (List.cons.inj hx).1]; simpa using hc

theorem expText_noSpace {x : Txt} {e : ℤ} (h : Spec.ExpText x e) : NoSpace x := by
  cases h with
  | none => intro c hc; cases hc
  | @some c s ds neg hc hs hne hd =>
    have hc' : c = 'e' ∨ c = 'E' := by simpa using hc
    refine NoSpace.cons (by rcases hc' with rfl | rfl <;> decide)
      (NoSpace.append ?_ ((isDig_iff ds).mp hd).noSpace)
    cases hs <;> (intro c hc; revert c; decide)

/-! ### Decimals -/

theorem takeFraction_eq (point fp x : Txt) (e : ℤ) (h2 : IsDig fp)
    (hp : point = ['.'] ∨ point = [] ∧ fp = []) (hx : Spec.ExpText x e) :
    takeFraction (point ++ (fp ++ x)) = (fp, x) := by
  have hh : ∀ c r, x = c :: r → decVal c = none := by
    intro c r h
    rcases expText_head hx c r h with rfl | rfl <;> decide
  rcases hp with rfl | ⟨rfl, rfl⟩
  · exact spanDigits_eq fp x h2 hh
  · show takeFraction x = _
    unfold takeFraction
    split
    · next r => exact absurd (expText_head hx '.' r rfl) (by decide)
    · rfl

theorem parseDecimal_spec (ip point fp x : Txt) (e : ℤ) (h1 : IsDig ip) (h2 : IsDig fp)
    (hne : ip ≠ [] ∨ fp ≠ []) (hp : point = ['.'] ∨ point = [] ∧ fp = []) (hx : Spec.ExpText x e) :
    parseDecimal (ip ++ (point ++ (fp ++ x))) = some (numT (ip ++ fp), e - fp.length) := by
  have hh : ∀ c r, point ++ (fp ++ x) = c :: r → decVal c = none := by
    intro c r h
    rcases hp with rfl | ⟨rfl, rfl⟩
    · rw [← (List.cons.inj h).1]; decide
    · rcases expText_head hx c r h with rfl | rfl <;> decide
  unfold parseDecimal
  rw [spanDigits_eq ip _ h1 hh]
  simp only [takeFraction_eq point fp x e h2 hp hx, (parseExp_iff x e).mpr hx]
  rw [if_neg (by tauto), readDigits_isDig _ (h1.append h2)]
  simp

theorem spanDigits_split (t : Txt) : IsDig (spanDigits t).1 ∧ t = (spanDigits t).1 ++ (spanDigits t).2 :=
  ⟨fun _ h => List.mem_takeWhile_imp (p := fun c => (decVal c).isSome) h,
    (List.takeWhile_append_dropWhile).symm⟩

theorem takeFraction_split (t : Txt) : IsDig (takeFraction t).1 ∧
    ∃ point, (point = ['.'] ∨ point = [] ∧ (takeFraction t).1 = []) ∧
      t = point ++ ((takeFraction t).1 ++ (takeFraction t).2) := by
  unfold takeFraction
  split
  · next r =>
    obtain ⟨h1, h2⟩ := spanDigits_split r
    exact ⟨h1, ['.'], .inl rfl, congrArg ('.' :: ·) h2⟩
  · refine ⟨?_, [], .inr ⟨rfl, rfl⟩, rfl⟩
    intro c hc; cases hc

theorem parseDecimal_inv (t : Txt) (n : ℕ) (e : ℤ) (h : parseDecimal t = some (n, e)) :
    ∃ ip point fp x ex, IsDig ip ∧ IsDig fp ∧ (ip ≠ [] ∨ fp ≠ []) ∧
      (point = ['.'] ∨ point = [] ∧ fp = []) ∧ Spec.ExpText x ex ∧
      t = ip ++ (point ++ (fp ++ x)) ∧ n = numT (ip ++ fp) ∧ e = ex - fp.length := by
  unfold parseDecimal at h
  obtain ⟨h1, h2⟩ := spanDigits_split t
  generalize spanDigits t = p at h h1 h2
  obtain ⟨ip, r⟩ := p
  simp only at h h1 h2
  obtain ⟨h3, point, h4, h5⟩ := takeFraction_split r
  generalize takeFraction r = q at h h3 h4 h5
  obtain ⟨fp, x⟩ := q
  simp only at h h3 h4 h5
  by_cases hne : ip = [] ∧ fp = []
  · rw [if_pos hne] at h; cases h
  · rw [if_neg hne, readDigits_isDig _ (h1.append h3), zero_mul, zero_add] at h
    cases hx : parseExp x with
    | none => rw [hx] at h; cases h
    | some ex =>
      rw [hx] at h
      have h := Prod.mk.inj (Option.some.inj h)
      exact ⟨ip, point, fp, x, ex, h1, h3, by tauto, h4, (parseExp_iff x ex).mp hx,
        h2.trans (congrArg (ip ++ ·) h5), h.1.symm, h.2.symm⟩

/-! ### Literals -/

theorem signText_noSpace {s : Txt} {neg : Bool} (h : Spec.SignText s neg) : NoSpace s := by
  cases h <;> (intro c hc; revert c; decide)

theorem toLower_space (c : Char) (h : isSpace c = true) : c.toLower = c := by
  have : ∀ c ∈ [' ', '\t', '\n', '\r', '\x0b', '\x0c'], c.toLower = c := by decide
  exact this c ((blank_iff c).mpr h)

theorem word_facts (w v : Txt) (h : w.map Char.toLower = v) (hv : ∀ c ∈ v, isSpace c = false)
    (hs : '-' ∉ v ∧ '+' ∉ v) : NoSpace w ∧ ∀ c r, w = c :: r → c ≠ '-' ∧ c ≠ '+' := by
  constructor
  · intro c hc
    cases hsp : isSpace c with
    | false => rfl
    | true =>
      have := hv c (by rw [← h, List.mem_map]; exact ⟨c, hc, toLower_space c hsp⟩)
      rw [hsp] at this; cases this
  · rintro c r rfl
    constructor
    · rintro rfl; exact hs.1 (by rw [← h]; simp)
    · rintro rfl; exact hs.2 (by rw [← h]; simp)

/-- A decimal does not spell a word that starts with a letter. -/
theorem decimal_lower (ip point fp x : Txt) (h1 : IsDig ip) (hne : ip ≠ [] ∨ fp ≠ [])
    (hp : point = ['.'] ∨ point = [] ∧ fp = []) (c : Char) (hc : decVal c = none) (hc' : c ≠ '.')
    (r : Txt) : lower (ip ++ (point ++ (fp ++ x))) ≠ c :: r := by
  cases ip with
  | nil =>
    rcases hp with rfl | ⟨rfl, rfl⟩
    · intro h
      exact hc' (List.cons.inj h).1.symm
    · simp at hne
  | cons d ip =>
    exact DigHead.lower ⟨d, _, rfl, h1 d (by simp)⟩ c hc r

theorem parseFloat_literal (t : Txt) (v : SFlt K) (h : Spec.Literal t v) :
    NoSpace t ∧ t ≠ [] ∧ parseFloat t = .ok v := by
  have key : ∀ {s w : Txt} {neg : Bool}, Spec.SignText s neg → NoSpace w → w ≠ [] →
      (∀ c r, w = c :: r → c ≠ '-' ∧ c ≠ '+') → NoSpace (s ++ w) ∧ s ++ w ≠ [] ∧
      takeSign (strip (s ++ w)) = (neg, w) := by
    intro s w neg hs hw hne hh
    have hn := (signText_noSpace hs).append hw
    exact ⟨hn, by simp [hne], by rw [strip_word _ hn, takeSign_sign hs hh]⟩
  cases h with
  | @inf s w neg hs hw =>
    have hw' : w.map Char.toLower = "inf".toList ∨ w.map Char.toLower = "infinity".toList := by
      simpa using hw
    have hne : w ≠ [] := by rintro rfl; revert hw'; decide
    have hf : NoSpace w ∧ ∀ c r, w = c :: r → c ≠ '-' ∧ c ≠ '+' := by
      rcases hw' with h | h <;> exact word_facts w _ h (by decide) (by decide)
    obtain ⟨h1, h2, h3⟩ := key hs hf.1 hne hf.2
    refine ⟨h1, h2, ?_⟩
    unfold parseFloat
    rw [h3]
    exact if_pos hw'
  | @nan s w neg hs hw =>
    have hne : w ≠ [] := by rintro rfl; revert hw; decide
    have hf := word_facts w _ hw (by decide) (by decide)
    obtain ⟨h1, h2, h3⟩ := key hs hf.1 hne hf.2
    refine ⟨h1, h2, ?_⟩
    unfold parseFloat
    rw [h3]
    simp only [lower, hw]
    rfl
  | @dec s ip point fp x neg e hs hi hf hne hp hx =>
    have hi' := (isDig_iff ip).mp hi
    have hf' := (isDig_iff fp).mp hf
    have hw : NoSpace (ip ++ (point ++ (fp ++ x))) := by
      refine hi'.noSpace.append (NoSpace.append ?_ (hf'.noSpace.append (expText_noSpace hx)))
      rcases hp with rfl | ⟨rfl, _⟩ <;> (intro c hc; revert c; decide)
    have hwne : ip ++ (point ++ (fp ++ x)) ≠ [] := by
      rcases hne with h | h <;> simp [h]
    have hh : ∀ c r, ip ++ (point ++ (fp ++ x)) = c :: r → c ≠ '-' ∧ c ≠ '+' := by
      intro c r h
      cases ip with
      | nil =>
        rcases hp with rfl | ⟨rfl, rfl⟩
        · rw [← (List.cons.inj h).1]; decide
        · simp at hne
      | cons d ip => rw [← (List.cons.inj h).1]; exact digit_not_sign (hi' d (by simp))
    obtain ⟨h1, h2, h3⟩ := key hs hw hwne hh
    refine ⟨h1, h2, ?_⟩
    unfold parseFloat
    rw [h3]
    have hl := decimal_lower ip point fp x hi' hne hp
    have n1 : ¬(lower (ip ++ (point ++ (fp ++ x))) = "inf".toList ∨
        lower (ip ++ (point ++ (fp ++ x))) = "infinity".toList) := by
      rintro (h | h)
      · exact hl 'i' (by decide) (by decide) ['n', 'f'] h
      · exact hl 'i' (by decide) (by decide) ['n', 'f', 'i', 'n', 'i', 't', 'y'] h
    have n2 : ¬ lower (ip ++ (point ++ (fp ++ x))) = "nan".toList :=
      fun h => hl 'n' (by decide) (by decide) ['a', 'n'] h
    simp only [n1, n2, if_false, parseDecimal_spec ip point fp x e hi' hf' hne hp hx,
      digitsVal_eq _ (hi'.append hf')]

theorem parseFloat_strip (t : Txt) (v : SFlt K) (h : parseFloat t = .ok v) : Spec.Literal (strip t) v := by
  unfold parseFloat at h
  obtain ⟨s, hs, ht⟩ := takeSign_split (strip t)
  generalize takeSign (strip t) = p at h hs ht
  obtain ⟨neg, w⟩ := p
  simp only at h hs ht
  rw [ht]
  by_cases h1 : lower w = "inf".toList ∨ lower w = "infinity".toList
  · rw [if_pos h1] at h
    cases h
    exact .inf hs (by simpa [lower] using h1)
  · rw [if_neg h1] at h
    by_cases h2 : lower w = "nan".toList
    · rw [if_pos h2] at h
      cases h
      exact .nan hs h2
    · rw [if_neg h2] at h
      cases hd : parseDecimal w with
      | none => rw [hd] at h; cases h
      | some p =>
        obtain ⟨n, e⟩ := p
        rw [hd] at h
        obtain ⟨ip, point, fp, x, ex, a1, a2, a3, a4, a5, rfl, rfl, rfl⟩ := parseDecimal_inv w n e hd
        have hv : v = .fin neg ((Spec.digitsVal (ip ++ fp) : K) * 10 ^ (ex - fp.length)) := by
          rw [digitsVal_eq _ (a1.append a2)]; exact (Except.ok.inj h).symm
        rw [hv]
        exact .dec hs ((isDig_iff ip).mpr a1) ((isDig_iff fp).mpr a2) a3 a4 a5

theorem parseFloat_iff (t : Txt) (v : SFlt K) : parseFloat t = .ok v ↔ Spec.NumberText t v := by
  constructor
  · intro h
    obtain ⟨pre, post, h1, h2, h3⟩ := strip_split t
    exact ⟨pre, strip t, post, fun c hc => (blank_iff c).mpr (h1 c hc),
      fun c hc => (blank_iff c).mpr (h2 c hc), h3, parseFloat_strip t v h⟩
  · rintro ⟨pre, core, post, h1, h2, rfl, h3⟩
    obtain ⟨a1, a2, a3⟩ := parseFloat_literal core v h3
    have e : parseFloat (K := K) (pre ++ core ++ post) = parseFloat core := by
      unfold parseFloat
      rw [strip_blanks pre core post (fun c hc => (blank_iff c).mp (h1 c hc))
        (fun c hc => (blank_iff c).mp (h2 c hc)) a1 a2, strip_word core a1]
    rw [e, a3]

theorem parseFloat_error (t : Txt) (e : PyErr) (h : parseFloat (K := K) t = .error e) :
    ∀ v : SFlt K, ¬ Spec.NumberText t v := by
  intro v hv
  rw [(parseFloat_iff t v).mpr hv] at h; cases h

end CLF
