import Verif.Lemmas.FloatText

/-! Writing an array and reading it back. -/

set_option linter.unusedSectionVars false

namespace CLF

variable {K : Type} [Field K] [LinearOrder K] [IsStrictOrderedRing K] [FloorRing K]

/-- The formats bit encodings are used with. -/
def GoodFmt (f : Fmt) : Prop := 1 ≤ f.mant ∧ 16 ^ (f.width / 4) = 2 ^ f.width

theorem goodFmt_half : GoodFmt half := ⟨by decide, by decide⟩
theorem goodFmt_single : GoodFmt single := ⟨by decide, by decide⟩
theorem goodFmt_double : GoodFmt double := ⟨by decide, by decide⟩

/-- An encoding with one of those formats. -/
def Enc.Good : Enc → Prop
  | .decimal => True
  | .int f => GoodFmt f
  | .hex f => GoodFmt f

theorem readEnc_good (raw : Bool) (s : String) : (readEnc raw s).Good := by
  unfold readEnc
  split_ifs
  exacts [goodFmt_half, goodFmt_single, goodFmt_double, goodFmt_half, goodFmt_single, goodFmt_double,
    trivial]

theorem writeEnc_eq {compat : ℕ} {raw : Bool} {s : String} {e : Enc}
    (h : writeEnc compat raw s = .ok e) : e = readEnc raw s := by
  unfold writeEnc at h
  unfold readEnc
  by_cases h0 : s = "string"
  · subst h0
    cases raw <;> simp at h <;> simp [← h]
  · rw [if_pos h0] at h
    by_cases hc : hasFeature compat duiker = true
    · rw [if_pos hc] at h
      split_ifs at h ⊢ <;> exact (Except.ok.inj h).symm
    · rw [if_neg hc] at h; cases h

/-- The token without padding. -/
def coreToken (e : Enc) (x : SFlt K) : Txt :=
  match e with
  | .decimal => core9 x
  | .int f => showNat (x.bits f)
  | .hex f => showFixed 16 (f.width / 4) (x.bits f)

/-- The value a token stands for. -/
def Enc.back (store : SFlt K → SFlt K) (e : Enc) (x : SFlt K) : SFlt K :=
  match e with
  | .decimal => store (dec9 x)
  | .int f => SFlt.round f x
  | .hex f => SFlt.round f x

theorem padLeft_padLeft (a b : ℕ) (hab : a ≤ b) (t : Txt) : padLeft b (padLeft a t) = padLeft b t := by
  unfold padLeft
  rw [← List.append_assoc, List.replicate_append_replicate]
  congr 2
  simp only [List.length_append, List.length_replicate]
  omega

theorem writeToken_pad {e : Enc} {x : SFlt K} {t : Txt} (h : writeToken e x = .ok t) :
    padLeft e.pad t = padLeft e.pad (coreToken e x) := by
  cases e with
  | decimal =>
    obtain rfl := Except.ok.inj h
    rw [show9_eq, padLeft_padLeft 6 _ (by decide)]
    rfl
  | int f => obtain rfl := Except.ok.inj h; rfl
  | hex f =>
    simp only [writeToken, floatToHex] at h
    split at h
    · obtain rfl := Except.ok.inj h; rfl
    · cases h

theorem coreToken_word (e : Enc) (he : e.Good) (x : SFlt K) :
    NoSpace (coreToken e x) ∧ coreToken e x ≠ [] := by
  cases e with
  | decimal => exact ⟨core9_noSpace x, core9_ne x⟩
  | int f => exact ⟨(isDig_showNat _).noSpace, showNat_ne _⟩
  | hex f =>
    refine ⟨showFixed_noSpace 16 _ _ (by norm_num) le_rfl, ?_⟩
    intro h
    have h1 := congrArg List.length h
    simp only [coreToken, showFixed_length, List.length_nil] at h1
    have h2 := he.2
    rw [h1, pow_zero] at h2
    have : 1 < 2 ^ f.width := Nat.one_lt_two_pow (by unfold Fmt.width; omega)
    omega

theorem readToken_core (store : SFlt K → SFlt K) (e : Enc) (he : e.Good) (x : SFlt K) :
    readToken store e (coreToken e x) = .ok (e.back store x) := by
  cases e with
  | decimal => simp only [readToken, coreToken, parseFloat_core9, py_ok_bind]; rfl
  | int f =>
    simp only [readToken, coreToken, parseNat_showNat, py_ok_bind,
      if_pos (SFlt.bits_lt f he.1 x)]
    rfl
  | hex f =>
    have : x.bits f < 16 ^ (f.width / 4) := by rw [he.2]; exact SFlt.bits_lt f he.1 x
    simp only [readToken, hexToFloat, coreToken, parseHex_showFixed _ _ this, py_ok_bind]
    rfl

theorem mapM_writeToken {e : Enc} {xs : List (SFlt K)} {ts : List Txt}
    (h : xs.mapM (writeToken e) = .ok ts) :
    ts.map (padLeft e.pad) = (xs.map (coreToken e)).map (padLeft e.pad) := by
  induction xs generalizing ts with
  | nil => rw [py_mapM_nil] at h; obtain rfl := Except.ok.inj h; rfl
  | cons x xs ih =>
    rw [py_mapM_cons] at h
    obtain ⟨t, ht, h⟩ := py_bind_eq_ok.mp h
    obtain ⟨ts', hts, h⟩ := py_bind_eq_ok.mp h
    obtain rfl := Except.ok.inj h
    rw [List.map_cons, List.map_cons, List.map_cons, writeToken_pad ht, ih hts]

theorem writeRow_eq {compat : ℕ} {a : SArr K} {xs : List (SFlt K)} {t : Txt}
    (h : writeRow compat a xs = .ok t) : ∃ e, writeEnc compat a.rawHalfs a.floatEncoding = .ok e ∧
    t = joinWith [' '] ((xs.map (coreToken e)).map (padLeft e.pad)) ++ ['\n'] := by
  unfold writeRow at h
  have key : ∀ r : Py Unit, (r >>= fun _ => (do
      let e ← writeEnc compat a.rawHalfs a.floatEncoding
      let ts ← xs.mapM (writeToken e)
      pure (joinWith [' '] (ts.map (padLeft e.pad)) ++ ['\n']))) = Except.ok t →
      ∃ e, writeEnc compat a.rawHalfs a.floatEncoding = .ok e ∧
      t = joinWith [' '] ((xs.map (coreToken e)).map (padLeft e.pad)) ++ ['\n'] := by
    intro r h
    obtain ⟨_, _, h⟩ := py_bind_eq_ok.mp h
    obtain ⟨e, he, h⟩ := py_bind_eq_ok.mp h
    obtain ⟨ts, hts, h⟩ := py_bind_eq_ok.mp h
    obtain rfl := Except.ok.inj h
    exact ⟨e, he, by rw [mapM_writeToken hts]⟩
  split at h
  · exact key (do let _ ← xs.mapM intCheck; pure ()) (by simpa using h)
  · exact key (pure ()) h

theorem words_rows (pad : ℕ) (rows : List (List Txt))
    (h : ∀ r ∈ rows, ∀ w ∈ r, NoSpace w ∧ w ≠ []) (rest : Txt) :
    words ((rows.map fun r => joinWith [' '] (r.map (padLeft pad)) ++ ['\n']).flatten ++ rest)
      = rows.flatten ++ words rest := by
  induction rows with
  | nil => rfl
  | cons r rows ih =>
    have ih := ih fun r hr => h r (by simp [hr])
    rw [List.map_cons, List.flatten_cons, List.append_assoc, List.append_assoc]
    simp only [List.cons_append, List.nil_append]
    rw [words_join pad r (h r (by simp)) '\n' (by decide), ih, List.flatten_cons, List.append_assoc]

theorem slices_flatten {α : Type} (l : List α) (c r : ℕ) (h : r * c ≤ l.length) :
    ((List.range r).map fun n => pySlice l (n * c) ((n + 1) * c)).flatten = l.take (r * c) := by
  induction r with
  | zero => simp
  | succ r ih =>
    have hr : r * c ≤ l.length := le_trans (Nat.mul_le_mul_right c (by omega)) h
    rw [List.range_succ, List.map_append, List.flatten_append, ih hr]
    simp only [List.map_cons, List.map_nil, List.flatten_cons, List.flatten_nil, List.append_nil]
    rw [pySlice, show (r + 1) * c - r * c = c by rw [Nat.add_mul]; omega,
      show (r + 1) * c = r * c + c by rw [Nat.add_mul]; omega, List.take_add]

theorem pieces_snoc (t : Txt) (c : Char) (hc : isSpace c = true) :
    pieces (t ++ [c]) = pieces t ++ [[]] := by
  induction t with
  | nil => simp [pieces, hc]
  | cons x t ih =>
    rw [List.cons_append, pieces, ih, pieces]
    split
    · rfl
    · have := pieces_ne t
      match h : pieces t with
      | [] => exact absurd h this
      | w :: ws => rfl

theorem words_snoc (t : Txt) (c : Char) (hc : isSpace c = true) : words (t ++ [c]) = words t := by
  unfold words
  rw [pieces_snoc t c hc, List.filter_append]
  simp

theorem words_joined (ws : List Txt) (h : ∀ w ∈ ws, NoSpace w ∧ w ≠ []) :
    words (joinWith [' '] ws) = ws := by
  have := words_join 0 ws h ' ' (by decide) []
  rw [words_snoc _ _ (by decide), words_nil, List.append_nil] at this
  have e : ws.map (padLeft 0) = ws := by
    conv_rhs => rw [← List.map_id ws]
    apply List.map_congr_left
    intro w _
    simp [padLeft]
  rw [e] at this
  exact this

theorem dims_back (dims : List ℕ) :
    (words (joinWith [' '] (dims.map showNat))).mapM parseNat = .ok dims := by
  rw [words_joined]
  · induction dims with
    | nil => rfl
    | cons d ds ih => rw [List.map_cons, py_mapM_cons, parseNat_showNat, py_ok_bind, ih]; rfl
  · intro w hw
    obtain ⟨n, _, rfl⟩ := List.mem_map.mp hw
    exact ⟨(isDig_showNat n).noSpace, showNat_ne n⟩

theorem mapM_readToken (store : SFlt K → SFlt K) (e : Enc) (he : e.Good) (xs : List (SFlt K)) :
    (xs.map (coreToken e)).mapM (readToken store e) = .ok (xs.map (e.back store)) := by
  induction xs with
  | nil => rfl
  | cons x xs ih =>
    rw [List.map_cons, py_mapM_cons, readToken_core store e he, py_ok_bind, ih]; rfl

/-- The text written for the complete rows. -/
def arrText (e : Enc) (vs : List (SFlt K)) (rows c : ℕ) : Txt :=
  ['\n'] ++ ((List.range rows).map fun n =>
    joinWith [' '] (((pySlice vs (n * c) ((n + 1) * c)).map (coreToken e)).map (padLeft e.pad))
      ++ ['\n']).flatten ++ ['\t', '\t']

theorem words_arrText (e : Enc) (he : e.Good) (vs : List (SFlt K)) (rows c : ℕ)
    (h : rows * c ≤ vs.length) :
    words (arrText e vs rows c) = (vs.take (rows * c)).map (coreToken e) := by
  unfold arrText
  rw [List.append_assoc, List.singleton_append, words_space _ _ (by decide)]
  have := words_rows e.pad ((List.range rows).map fun n =>
    (pySlice vs (n * c) ((n + 1) * c)).map (coreToken e)) (by
      intro r hr w hw
      obtain ⟨n, _, rfl⟩ := List.mem_map.mp hr
      obtain ⟨x, _, rfl⟩ := List.mem_map.mp hw
      exact coreToken_word e he x) ['\t', '\t']
  rw [List.map_map] at this
  refine this.trans ?_
  rw [show words ['\t', '\t'] = [] by decide, List.append_nil, ← slices_flatten vs c rows h,
    List.map_flatten, List.map_map]
  rfl

/-- What writing produces, and what reading it gives. -/
theorem SArr.write_eq {compat : ℕ} {a : SArr K} {et : String} {x : Xml}
    (h : a.write compat et = .ok x) : ∃ c rows, columnsOf a.dims = .ok c ∧ c ≠ 0 ∧
      rows = a.values.length / c ∧
      (0 < rows → writeEnc compat a.rawHalfs a.floatEncoding
        = .ok (readEnc a.rawHalfs a.floatEncoding)) ∧
      x = .mk et ([("dim", String.ofList (joinWith [' '] (a.dims.map showNat)))] ++
        if 0 < rows ∧ a.floatEncoding ≠ "string" ∧ knownEncoding a.floatEncoding
        then [("floatEncoding", a.floatEncoding)] else [])
        (some (String.ofList (arrText (readEnc a.rawHalfs a.floatEncoding) a.values rows c))) [] := by
  unfold SArr.write at h
  obtain ⟨c, hc, h⟩ := py_bind_eq_ok.mp h
  obtain ⟨rows, hr, h⟩ := py_bind_eq_ok.mp h
  obtain ⟨ts, hts, h⟩ := py_bind_eq_ok.mp h
  have hc0 : c ≠ 0 := by
    intro h0; rw [pyDivNat, if_pos h0] at hr; cases hr
  rw [pyDivNat, if_neg hc0] at hr
  have hr := (Except.ok.inj hr).symm
  have key : ∀ (l : List ℕ) (ts : List Txt), l.mapM (fun n =>
      writeRow compat a (pySlice a.values (n * c) ((n + 1) * c))) = .ok ts →
      (l ≠ [] → writeEnc compat a.rawHalfs a.floatEncoding
        = .ok (readEnc a.rawHalfs a.floatEncoding)) ∧
      ts = l.map fun n => joinWith [' '] (((pySlice a.values (n * c) ((n + 1) * c)).map
        (coreToken (readEnc a.rawHalfs a.floatEncoding))).map
          (padLeft (readEnc a.rawHalfs a.floatEncoding).pad)) ++ ['\n'] := by
    intro l
    induction l with
    | nil => intro ts h; rw [py_mapM_nil] at h; obtain rfl := Except.ok.inj h; exact ⟨by simp, rfl⟩
    | cons n l ih =>
      intro ts h
      rw [py_mapM_cons] at h
      obtain ⟨t, ht, h⟩ := py_bind_eq_ok.mp h
      obtain ⟨ts', hts, h⟩ := py_bind_eq_ok.mp h
      obtain rfl := Except.ok.inj h
      obtain ⟨e, he, rfl⟩ := writeRow_eq ht
      obtain rfl := writeEnc_eq he
      exact ⟨fun _ => he, by rw [(ih ts' hts).2]; rfl⟩
  obtain ⟨k1, k2⟩ := key _ _ hts
  refine ⟨c, rows, hc, hc0, hr, ?_, ?_⟩
  · intro h0
    exact k1 (by intro h; have := congrArg List.length h; simp at this; omega)
  · rw [← Except.ok.inj h, k2]
    rfl

/-- Reading a written array into a new one with the same `rawHalfs`. -/
theorem SArr.read_write {compat : ℕ} {a : SArr K} {et : String} {x : Xml}
    (h : a.write compat et = .ok x) (store : SFlt K → SFlt K) (init : SArr K)
    (hraw : init.rawHalfs = a.rawHalfs) (henc : init.floatEncoding = "string") :
    ∃ c, columnsOf a.dims = .ok c ∧ c ≠ 0 ∧ SArr.read store init x = .ok { init with
      dims := a.dims
      floatEncoding := if 0 < a.values.length / c ∧ knownEncoding a.floatEncoding
        then a.floatEncoding else "string"
      values := (a.values.take (a.values.length / c * c)).map
        ((readEnc a.rawHalfs a.floatEncoding).back store) } := by
  obtain ⟨c, rows, hc, hc0, hr, _, rfl⟩ := SArr.write_eq h
  subst hr
  refine ⟨c, hc, hc0, ?_⟩
  have hle : a.values.length / c * c ≤ a.values.length := Nat.div_mul_le_self _ _
  set rows := a.values.length / c with hrows
  unfold SArr.read
  simp only [Xml.attrs, Xml.text]
  have hd : Dict.get? ([("dim", String.ofList (joinWith [' '] (a.dims.map showNat)))] ++
        if 0 < rows ∧ a.floatEncoding ≠ "string" ∧ knownEncoding a.floatEncoding = true
        then [("floatEncoding", a.floatEncoding)] else []) "dim"
      = some (String.ofList (joinWith [' '] (a.dims.map showNat))) := by simp [Dict.get?]
  have he : Dict.get? ([("dim", String.ofList (joinWith [' '] (a.dims.map showNat)))] ++
        if 0 < rows ∧ a.floatEncoding ≠ "string" ∧ knownEncoding a.floatEncoding = true
        then [("floatEncoding", a.floatEncoding)] else []) "floatEncoding"
      = if 0 < rows ∧ knownEncoding a.floatEncoding = true then some a.floatEncoding else none := by
    by_cases h1 : 0 < rows ∧ knownEncoding a.floatEncoding = true
    · have : a.floatEncoding ≠ "string" := by
        intro h; rw [h] at h1; exact absurd h1.2 (by decide)
      simp [Dict.get?, h1, this]
    · rw [if_neg h1, if_neg (by tauto)]
      simp [Dict.get?]
  rw [hd, he]
  simp only [String.toList_ofList, dims_back, py_ok_bind]
  have hread : ∀ enc : String, (0 < rows → readEnc init.rawHalfs enc
        = readEnc a.rawHalfs a.floatEncoding) →
      (words (arrText (readEnc a.rawHalfs a.floatEncoding) a.values rows c)).mapM
        (readToken store (readEnc init.rawHalfs enc)) = .ok ((a.values.take (rows * c)).map
        ((readEnc a.rawHalfs a.floatEncoding).back store)) := by
    intro enc hh
    rw [words_arrText _ (readEnc_good _ _) _ _ _ hle]
    by_cases h0 : 0 < rows
    · rw [hh h0]
      exact mapM_readToken store _ (readEnc_good _ _) _
    · have h00 : rows = 0 := Nat.eq_zero_of_not_pos h0
      rw [h00, Nat.zero_mul]; rfl
  by_cases h1 : 0 < rows ∧ knownEncoding a.floatEncoding = true
  · simp only [if_pos h1]
    rw [hread _ fun _ => by rw [hraw]]
    rfl
  · simp only [if_neg h1, henc]
    rw [hread]
    · rfl
    · intro h0
      have hk : ¬ knownEncoding a.floatEncoding = true := fun h => h1 ⟨h0, h⟩
      rw [hraw]
      simp only [knownEncoding, Bool.or_eq_true, decide_eq_true_eq] at hk
      push Not at hk
      have hs : ∀ t : String, t = "integer16bit" ∨ t = "integer32bit" ∨ t = "integer64bit" ∨
          t = "hex16bit" ∨ t = "hex32bit" ∨ t = "hex64bit" → "string" ≠ t := by
        rintro t (rfl | rfl | rfl | rfl | rfl | rfl) <;> decide
      simp only [readEnc, hk, hs _ (Or.inl rfl), hs "integer32bit" (by simp),
        hs "integer64bit" (by simp), hs "hex16bit" (by simp), hs "hex32bit" (by simp),
        hs "hex64bit" (by simp)]

end CLF
