import Verif.Lemmas.ReadParams
import Verif.Props.Read
import Verif.Props.ReadFile

/-! # Properties C128 and C129: parameters of nodes and their defaults -/

set_option linter.unusedSectionVars false

namespace CLF

variable {K : Type} [Field K] [LinearOrder K] [IsStrictOrderedRing K] [FloorRing K]

/-! ### C128 -/

/-- A number text stands for one number. -/
theorem C128_number (t : String) (v w : Flt K) (hv : Spec.Number t v) (hw : Spec.Number t w) : v = w := by
  obtain ⟨n, h1, rfl⟩ := hv
  obtain ⟨m, h2, rfl⟩ := hw
  rw [Except.ok.inj (((parseFloat_iff _ n).mpr h1).symm.trans ((parseFloat_iff _ m).mpr h2))]

example : Spec.Number " -1.5e2\n" (.fin (-150) : Flt ℚ) :=
  ⟨.fin true 150, ⟨[' '], "-1.5e2".toList, ['\n'], by simp [Spec.Blank], by simp [Spec.Blank], by decide, by
    have := Spec.Literal.dec (K := ℚ) (s := ['-']) (ip := ['1']) (point := ['.']) (fp := ['5'])
      (x := 'e' :: ([] ++ ['2'])) .minus (by simp [Spec.Digit]) (by simp [Spec.Digit]) (.inl (by decide)) (.inl rfl)
      (.some (by decide) .none (by decide) (by simp [Spec.Digit]))
    have e : ((Spec.digitsVal (['1'] ++ ['5']) : ℕ) : ℚ) *
        10 ^ ((if false then -(Spec.digitsVal ['2'] : ℤ) else Spec.digitsVal ['2']) - (['5'] : List Char).length) =
        150 := by
      simp [Spec.digitsVal]; norm_num
    rw [e] at this
    exact this⟩, by simp [SFlt.toFlt]⟩

example (v : Flt ℚ) : ¬ Spec.Number "1,5" v := by
  rintro ⟨n, h, _⟩
  have := (parseFloat_iff _ n).mpr h
  rw [show parseFloat (K := ℚ) "1,5".toList = .error .valueError from by decide] at this
  cases this

/-- The rows of a Log node are its `LogParams` elements, in order; what is not given is 0.6
for the gamma, 685 and 95 for white and black, 1 and 0 for highlight and shadow, and all
channels. -/
theorem C128_log (A : Arith K) (compat : ℕ) (load : String → Py (Option (List (Node K))))
    (strict : Bool) (x : Xml) (n : Node K) (hx : Spec.Named x.tag "Log")
    (h : readNode A compat load strict x = .ok n) :
    ∃ ps b cs, n = .leaf (.log ps) b ∧ Spec.Children x "LogParams" cs ∧
      List.Forall₂ (fun c p => Spec.Given c "gamma" (6 / 10) p.gamma ∧
        Spec.Given c "refWhite" 685 p.refWhite ∧ Spec.Given c "refBlack" 95 p.refBlack ∧
        Spec.Given c "highlight" 1 p.highlight ∧ Spec.Given c "shadow" 0 p.shadow ∧
        p.channel = c.attrs.lookup "channel") cs ps := by
  obtain ⟨k', b', rfl, h1⟩ := readNode_leaf A compat load strict x n "Log" _ _ hx rfl h
  obtain ⟨ds, qs, g1, g2, rfl⟩ := log_fold A compat _ _ _ _ _ h1
  exact ⟨qs, b', ds, rfl, g1, g2⟩

/-- A Log element is read if the numbers of its `LogParams` are numbers. -/
theorem C128_log_reads (A : Arith K) (compat : ℕ) (load : String → Py (Option (List (Node K))))
    (x : Xml) (hx : Spec.Named x.tag "Log") :
    (∃ n, readNode A compat load false x = .ok n) ↔
      ∀ c ∈ x.children, Spec.Named c.tag "LogParams" →
        ∀ key ∈ ["gamma", "refWhite", "refBlack", "highlight", "shadow"], Spec.NumericIfGiven K c key := by
  rw [readNode_leaf_total A compat load x "Log" _ _ hx rfl]
  refine foldlM_ok_iff _ (fun s => ∃ ps, s.1 = .log ps) _ ?_ ?_ _ _ ⟨[], rfl⟩
  · rintro ⟨k, b⟩ c ⟨k', b'⟩ ⟨ps, h0⟩ h
    simp only at h0
    subst h0
    rcases readLeafStep_cases A compat _ k' b b' c h with ⟨_, rfl, _⟩ | ⟨_, _, h3⟩
    · exact ⟨ps, rfl⟩
    · obtain ⟨_, ⟨_, p, _, rfl⟩ | ⟨_, rfl⟩⟩ := (log_child A ps b c k' b').mp h3 <;> exact ⟨_, rfl⟩
  · rintro ⟨k, b⟩ c ⟨ps, h0⟩
    simp only at h0
    subst h0
    constructor
    · rintro ⟨⟨k', b'⟩, h⟩ hn
      rw [named_dec] at hn
      rcases readLeafStep_cases A compat _ k' b b' c h with ⟨h1, _⟩ | ⟨_, _, h3⟩
      · rcases h1 with h1 | h1 <;> (rw [hn] at h1; exact absurd h1 (by decide))
      · obtain ⟨_, ⟨_, p, ⟨a1, a2, a3, a4, a5, _⟩, _⟩ | ⟨h5, _⟩⟩ := (log_child A ps b c k' b').mp h3
        · simp only [← floatAttr_iff] at a1 a2 a3 a4 a5
          simp only [List.forall_mem_cons, List.not_mem_nil, false_imp_iff, implies_true, and_true]
          exact ⟨(floatAttr_total c _ _).mp ⟨_, a1⟩, (floatAttr_total c _ _).mp ⟨_, a2⟩,
            (floatAttr_total c _ _).mp ⟨_, a3⟩, (floatAttr_total c _ _).mp ⟨_, a4⟩,
            (floatAttr_total c _ _).mp ⟨_, a5⟩⟩
        · exact absurd hn h5
    · intro h
      obtain ⟨o, ho⟩ := readCommon_total compat b c
      cases o with
      | some b1 => exact ⟨(.log ps, b1), py_bind_eq_ok.mpr ⟨_, ho, rfl⟩⟩
      | none =>
        by_cases hn : elementType c.tag = "LogParams"
        · have hk := h ((named_dec c _).mpr hn)
          simp only [List.forall_mem_cons, List.not_mem_nil, false_imp_iff, implies_true, and_true] at hk
          obtain ⟨h1, h2, h3, h4, h5⟩ := hk
          obtain ⟨v1, h1⟩ := (floatAttr_total c _ (6 / 10)).mpr h1
          obtain ⟨v2, h2⟩ := (floatAttr_total c _ 685).mpr h2
          obtain ⟨v3, h3⟩ := (floatAttr_total c _ 95).mpr h3
          obtain ⟨v4, h4⟩ := (floatAttr_total c _ 1).mpr h4
          obtain ⟨v5, h5⟩ := (floatAttr_total c _ 0).mpr h5
          rw [floatAttr_iff] at h1 h2 h3 h4 h5
          exact ⟨(_, b), py_bind_eq_ok.mpr ⟨_, ho, (log_child A ps b c _ b).mpr
            ⟨rfl, .inl ⟨hn, ⟨v1, v2, v3, v4, v5, _⟩, ⟨h1, h2, h3, h4, h5, rfl⟩, rfl⟩⟩⟩⟩
        · exact ⟨(_, b), py_bind_eq_ok.mpr ⟨_, ho, (log_child A ps b c _ b).mpr ⟨rfl, .inr ⟨hn, rfl⟩⟩⟩⟩

/-- A Log element with two rows. -/
def exLogDoc : Xml := .mk "Log" [("style", "logToLin")] none
  [.mk "Description" [] (some "x") [], .mk "LogParams" [("refBlack", "64"), ("channel", "R")] none [],
    .mk "LogParams" [] none []]

example : (∃ n, readNode ratArith 1 (fun _ => .ok none) false exLogDoc = .ok n) ∧
    Spec.Named exLogDoc.tag "Log" := ⟨⟨_, rfl⟩, (named_dec _ _).mpr (by decide)⟩

/-- The rows of a Gamma node are its `GammaParams` elements, in order; what is not given is 0
for gamma and offset, and all channels. -/
theorem C128_gamma (A : Arith K) (compat : ℕ) (load : String → Py (Option (List (Node K))))
    (strict : Bool) (x : Xml) (n : Node K) (hx : Spec.Named x.tag "Gamma")
    (h : readNode A compat load strict x = .ok n) :
    ∃ ps b cs, n = .leaf (.gamma ps) b ∧ Spec.Children x "GammaParams" cs ∧
      List.Forall₂ (fun c p => Spec.Given c "gamma" 0 p.gamma ∧ Spec.Given c "offset" 0 p.offset ∧
        p.channel = c.attrs.lookup "channel") cs ps := by
  obtain ⟨k', b', rfl, h1⟩ := readNode_leaf A compat load strict x n "Gamma" _ _ hx rfl h
  obtain ⟨ds, qs, g1, g2, rfl⟩ := gamma_fold A compat _ _ _ _ _ h1
  exact ⟨qs, b', ds, rfl, g1, g2⟩

example : ∃ n, readNode ratArith 1 (fun _ => .ok none) true (.mk "Gamma" [] none
    [.mk "GammaParams" [("gamma", "2.2")] none []]) = .ok n ∧ Spec.Named "Gamma" "Gamma" :=
  ⟨_, rfl, (named_dec (.mk "Gamma" [] none []) _).mpr (by decide)⟩

/-- The numbers of an ExposureContrast node are those of its last `ECParams` element; what is
not given is 0 for the exposure, 1 for contrast and pivot. -/
theorem C128_contrast (A : Arith K) (compat : ℕ) (load : String → Py (Option (List (Node K))))
    (strict : Bool) (x : Xml) (n : Node K) (hx : Spec.Named x.tag "ExposureContrast")
    (h : readNode A compat load strict x = .ok n) :
    ∃ e c p b cs, n = .leaf (.exposureContrast e c p) b ∧ Spec.Children x "ECParams" cs ∧
      (match cs.getLast? with
        | none => e = .fin 0 ∧ c = .fin 1 ∧ p = .fin 1
        | some d => Spec.Given d "exposure" 0 e ∧ Spec.Given d "contrast" 1 c ∧ Spec.Given d "pivot" 1 p) := by
  obtain ⟨k', b', rfl, h1⟩ := readNode_leaf A compat load strict x n "ExposureContrast" _ _ hx rfl h
  obtain ⟨ds, e, c, p, g1, g2, rfl⟩ := contrast_fold A compat _ _ _ _ _ _ _ h1
  exact ⟨e, c, p, b', ds, rfl, g1, g2⟩

example : ∃ n, readNode ratArith 1 (fun _ => .ok none) true (.mk "ExposureContrast" [] none
    [.mk "ECParams" [("exposure", "2")] none []]) = .ok n ∧
    Spec.Named "ExposureContrast" "ExposureContrast" :=
  ⟨_, rfl, (named_dec (.mk "ExposureContrast" [] none []) _).mpr (by decide)⟩

/-- Each of the four values of a Range is the number in its last element of that name. -/
theorem C128_range (A : Arith K) (compat : ℕ) (load : String → Py (Option (List (Node K))))
    (strict : Bool) (x : Xml) (n : Node K) (hx : Spec.Named x.tag "Range")
    (h : readNode A compat load strict x = .ok n) (key : String)
    (hk : key ∈ ["minInValue", "maxInValue", "minOutValue", "maxOutValue"]) :
    ∃ b cs, n = .leaf .range b ∧ Spec.Children x key cs ∧
      Spec.LastText Spec.Number cs (b.values.lookup key) := by
  obtain ⟨k', b', rfl, h1⟩ := readNode_leaf A compat load strict x n "Range" _ _ hx rfl h
  obtain ⟨rfl, ds, g1, g2⟩ := range_fold A compat key (by
    simp only [List.mem_cons, List.not_mem_nil, or_false] at hk
    rcases hk with rfl | rfl | rfl | rfl <;> decide) _ _ _ _ h1
  refine ⟨b', ds, rfl, g1, ?_⟩
  unfold Spec.LastText
  rw [← get?_lookup]
  have e : ∀ attrs : Dict String, (readAttrs (defaultBase (K := K)) attrs).values = [] := by
    intro attrs
    unfold readAttrs
    have : ∀ (b : Base K), b.values = [] →
        (attrs.foldl (fun b kv => b.setAttribute kv.1 (attrOfText kv.2)) b).values = [] := by
      induction attrs with
      | nil => exact fun b h => h
      | cons a attrs ih => exact fun b h => ih _ h
    exact this _ rfl
  rw [e] at g2
  exact g2

example : ∃ n, readNode ratArith 0 (fun _ => .ok none) true exRange = .ok n ∧
    Spec.Named exRange.tag "Range" := ⟨_, rfl, (named_dec exRange _).mpr (by decide)⟩

/-- Slope, offset, power and saturation of an ASC CDL are those of the last elements of those
names in its `SOPNode`s and `SatNode`s. -/
theorem C128_cdl (A : Arith K) (compat : ℕ) (load : String → Py (Option (List (Node K))))
    (strict : Bool) (x : Xml) (n : Node K) (name : String) (hx : Spec.Named x.tag name)
    (hn : name = "ASCCDL" ∨ name = "ColorCorrection") (h : readNode A compat load strict x = .ok n) :
    ∃ v b, n = .leaf (.cdl (name = "ColorCorrection") v) b ∧
      (∃ cs, Spec.Nested x "sopnode" "Slope" cs ∧ Spec.LastText Spec.Numbers cs v.slope) ∧
      (∃ cs, Spec.Nested x "sopnode" "Offset" cs ∧ Spec.LastText Spec.Numbers cs v.offset) ∧
      (∃ cs, Spec.Nested x "sopnode" "Power" cs ∧ Spec.LastText Spec.Numbers cs v.power) ∧
      (∃ cs, Spec.Nested x "satnode" "Saturation" cs ∧ Spec.LastText Spec.Number cs v.saturation) := by
  obtain ⟨b0, hc⟩ : ∃ b, classOf (K := K) name = some (.leaf (.cdl (name = "ColorCorrection") {}) b) := by
    rcases hn with rfl | rfl <;> exact ⟨_, rfl⟩
  obtain ⟨k', b', rfl, h1⟩ := readNode_leaf A compat load strict x n name _ _ hx hc h
  obtain ⟨v, gs, ds, rfl, a1, a2, a3⟩ := cdl_sop A compat _ (fun v => v.slope) "Slope"
    (fun v c v' h => (readSop_slope v v' c h).1) (fun v c v' h => (readSat_cases v v' c h).2.1) _ _ _ _ _ h1
  obtain ⟨v1, gs1, ds1, e1, b1, b2, b3⟩ := cdl_sop A compat _ (fun v => v.offset) "Offset"
    (fun v c v' h => (readSop_slope v v' c h).2.1) (fun v c v' h => (readSat_cases v v' c h).2.2.1) _ _ _ _ _ h1
  obtain ⟨v2, gs2, ds2, e2, c1, c2, c3⟩ := cdl_sop A compat _ (fun v => v.power) "Power"
    (fun v c v' h => (readSop_slope v v' c h).2.2.1) (fun v c v' h => (readSat_cases v v' c h).2.2.2) _ _ _ _ _ h1
  obtain ⟨v3, gs3, ds3, e3, d1, d2, d3⟩ := cdl_sat A compat _ _ _ _ _ _ h1
  cases e1; cases e2; cases e3
  exact ⟨v, b', rfl, ⟨ds, ⟨gs, a1, a2⟩, a3⟩, ⟨ds1, ⟨gs1, b1, b2⟩, b3⟩, ⟨ds2, ⟨gs2, c1, c2⟩, c3⟩,
    ⟨ds3, ⟨gs3, d1, d2⟩, d3⟩⟩

example : ∃ n, readNode ratArith 0 (fun _ => .ok none) true (.mk "ASC_CDL" [] none
    [.mk "SOPNode" [] none [.mk "Slope" [] (some "1 2 3") []],
      .mk "SATNode" [] none [.mk "Saturation" [] (some "0.9") []]]) = .ok n ∧
    Spec.Named "ASC_CDL" "ASCCDL" :=
  ⟨_, rfl, (named_dec (.mk "ASC_CDL" [] none []) _).mpr (by decide)⟩

theorem initAttrs_default (name : String) (hn : name ∈ Spec.nodeNames) (key : String) :
    (initAttrs name).lookup key = (Spec.defaultAttr name key).map AVal.str := by
  have hk : ∀ (s : String) (v : AVal) (d : List (String × AVal)), List.lookup key ((s, v) :: d) =
      if key = s then some v else List.lookup key d := by
    intro s v d
    rw [List.lookup_cons]
    by_cases h : key = s
    · simp [h]
    · have : (key == s) = false := by simp [h]
      rw [this, if_neg h]
  simp only [Spec.nodeNames, List.mem_cons, List.not_mem_nil, or_false] at hn
  by_cases k1 : key = "inBitDepth"
  · subst k1; rcases hn with rfl | rfl | rfl | rfl | rfl | rfl | rfl | rfl | rfl | rfl | rfl | rfl <;> decide
  by_cases k2 : key = "outBitDepth"
  · subst k2; rcases hn with rfl | rfl | rfl | rfl | rfl | rfl | rfl | rfl | rfl | rfl | rfl | rfl <;> decide
  by_cases k3 : key = "id"
  · subst k3; rcases hn with rfl | rfl | rfl | rfl | rfl | rfl | rfl | rfl | rfl | rfl | rfl | rfl <;> decide
  by_cases k4 : key = "name"
  · subst k4; rcases hn with rfl | rfl | rfl | rfl | rfl | rfl | rfl | rfl | rfl | rfl | rfl | rfl <;> decide
  by_cases k5 : key = "style"
  · subst k5; rcases hn with rfl | rfl | rfl | rfl | rfl | rfl | rfl | rfl | rfl | rfl | rfl | rfl <;> decide
  by_cases k6 : key = "interpolation"
  · subst k6; rcases hn with rfl | rfl | rfl | rfl | rfl | rfl | rfl | rfl | rfl | rfl | rfl | rfl <;> decide
  have e : Spec.defaultAttr name key = none := by
    unfold Spec.defaultAttr
    rw [if_neg k3]
    split
    · rfl
    · split <;> first | rfl | contradiction
  rw [e, Option.map_none, List.lookup_eq_none_iff]
  intro p hp
  have : ∀ name ∈ Spec.nodeNames, ∀ p ∈ initAttrs name,
      p.1 ∈ ["inBitDepth", "outBitDepth", "id", "name", "style", "interpolation"] := by decide +kernel
  have := this name (by simpa [Spec.nodeNames] using hn) p hp
  simp only [List.mem_cons, List.not_mem_nil, or_false] at this
  simp only [bne_iff_ne, ne_eq, beq_eq_false_iff_ne]
  rcases this with h | h | h | h | h | h <;> (rw [h]; assumption)

/-- The attributes of a node are those of its element, and for those it does not have the
defaults of its class. -/
theorem C128_attributes (A : Arith K) (compat : ℕ) (load : String → Py (Option (List (Node K))))
    (strict : Bool) (x : Xml) (hd : (x.attrs.map Prod.fst).Nodup) (n : Node K) (name : String)
    (hx : Spec.Named x.tag name) (hn : name ∈ Spec.nodeNames)
    (h : readNode A compat load strict x = .ok n) (key : String) :
    n.base.attrs.lookup key =
      match x.attrs.lookup key with
      | some t => some (if t = "True" then .bool true else if t = "False" then .bool false else .str t)
      | none => (Spec.defaultAttr name key).map AVal.str := by
  rw [readNode_attrs A compat load strict x n h, (named_dec x name).mp hx, ← get?_lookup,
    Dict.get?_foldl_set _ _ hd, get?_lookup, ← initAttrs_default name hn key, ← get?_lookup (initAttrs name)]
  cases x.attrs.lookup key <;> rfl

example : ∃ n : Node ℚ, readNode ratArith 0 (fun _ => .ok none) true
    (.mk "LUT1D" [("rawHalfs", "True"), ("outBitDepth", "10i")] none []) = .ok n ∧
    n.base.attrs.lookup "interpolation" = some (.str "linear") ∧
    n.base.attrs.lookup "rawHalfs" = some (.bool true) := ⟨_, rfl, by decide, by decide⟩

/-! ### C129 -/

/-- A `GammaParams` element without numbers is not neutral: it turns every positive colour
white, and without it the node leaves the colour alone. -/
theorem C129_false : ∃ n n' : Node ℚ,
    readNode ratArith 1 (fun _ => .ok none) true
      (.mk "Gamma" [] none [.mk "GammaParams" [] none []]) = .ok n ∧
    readNode ratArith 1 (fun _ => .ok none) true (.mk "Gamma" [] none []) = .ok n' ∧
    (n.process ratArith 1 3 [.fin (1 / 4), .fin (1 / 2), .fin 3]).map (·.out) =
      .ok [.fin 1, .fin 1, .fin 1] ∧
    (n'.process ratArith 1 3 [.fin (1 / 4), .fin (1 / 2), .fin 3]).map (·.out) =
      .ok [.fin (1 / 4), .fin (1 / 2), .fin 3] :=
  ⟨_, _, rfl, rfl, by decide +kernel, by decide +kernel⟩

/-- In the other direction it stops the node. -/
theorem C129_false_rev : ∃ n n' : Node ℚ,
    readNode ratArith 1 (fun _ => .ok none) true
      (.mk "Gamma" [("style", "basicRev")] none [.mk "GammaParams" [] none []]) = .ok n ∧
    readNode ratArith 1 (fun _ => .ok none) true (.mk "Gamma" [("style", "basicRev")] none []) = .ok n' ∧
    (n.process ratArith 1 3 [.fin (1 / 4), .fin (1 / 2), .fin 3]).map (·.out) = .error .zeroDivision ∧
    (n'.process ratArith 1 3 [.fin (1 / 4), .fin (1 / 2), .fin 3]).map (·.out) =
      .ok [.fin (1 / 4), .fin (1 / 2), .fin 3] :=
  ⟨_, _, rfl, rfl, by decide +kernel, by decide +kernel⟩

/-- A parameter element that gives none of the numbers `keys`, for all channels or one of the
three. -/
def Spec.GivesNothing (keys : List String) (c : Xml) : Prop :=
  (∀ key ∈ keys, c.attrs.lookup key = none) ∧
  ∀ t, c.attrs.lookup "channel" = some t → t ∈ ["R", "G", "B"]

theorem Picked.nil_of {P : Xml → Prop} {cs ds : List Xml} (h : Spec.Picked P cs ds)
    (hn : ∀ c ∈ cs, ¬ P c) : ds = [] := by
  induction h with
  | nil => rfl
  | take hc _ _ => exact absurd hc (hn _ (by simp))
  | skip _ _ ih => exact ih fun c hc => hn c (by simp [hc])

theorem Picked.forall {P Q : Xml → Prop} {cs ds : List Xml} (h : Spec.Picked P cs ds)
    (hn : ∀ c ∈ cs, P c → Q c) : ∀ d ∈ ds, Q d := by
  induction h with
  | nil => intro d hd; cases hd
  | take hc _ ih =>
    intro d hd
    rcases List.mem_cons.mp hd with rfl | hd
    · exact hn _ (by simp) hc
    · exact ih (fun c hc => hn c (by simp [hc])) d hd
  | skip _ _ ih => exact ih fun c hc => hn c (by simp [hc])

/-- The default numbers, for some channel. -/
def logDefault (ch : Option String) : LogParam K := ⟨.fin (6 / 10), .fin 685, .fin 95, .fin 1, .fin 0, ch⟩

theorem logParams_defaults (ps : List (LogParam K))
    (h : ∀ p ∈ ps, ∃ ch, p = logDefault ch ∧ ∀ t, ch = some t → t ∈ ["R", "G", "B"]) :
    ∃ a b c, logParams ps = .ok [logDefault a, logDefault b, logDefault c] := by
  have key : ∀ (ps : List (LogParam K)) (a b c : Option String),
      (∀ p ∈ ps, ∃ ch, p = logDefault ch ∧ ∀ t, ch = some t → t ∈ ["R", "G", "B"]) →
      ∃ a' b' c', ps.foldlM (init := [logDefault a, logDefault b, logDefault c]) (fun acc p =>
        match p.channel with
        | none => .ok (List.replicate 3 p)
        | some c => do
          let i ← channelIndex c
          pySet acc i p) = (.ok [logDefault a', logDefault b', logDefault c'] : Py (List (LogParam K))) := by
    intro ps
    induction ps with
    | nil => exact fun a b c _ => ⟨a, b, c, rfl⟩
    | cons p ps ih =>
      intro a b c hp
      obtain ⟨ch, rfl, hch⟩ := hp p (by simp)
      have hp' := fun q hq => hp q (List.mem_cons_of_mem _ hq)
      rw [List.foldlM_cons]
      cases ch with
      | none => exact ih none none none hp'
      | some t =>
        have := hch t rfl
        simp only [List.mem_cons, List.not_mem_nil, or_false] at this
        rcases this with rfl | rfl | rfl
        · exact ih (some "R") b c hp'
        · exact ih a (some "G") c hp'
        · exact ih a b (some "B") hp'
  exact key ps none none none h

theorem logStyle_channel (A : Arith K) (st : AVal) (f : LogParam K → Flt K → Py (Flt K))
    (h : logStyle A st = some f) (a b : Option String) (x : Flt K) :
    f (logDefault a) x = f (logDefault b) x := by
  unfold logStyle at h
  split at h
  · cases h; rfl
  split at h
  · cases h; rfl
  split at h
  · cases h; rfl
  split at h
  · cases h; rfl
  split at h
  · cases h; rfl
  split at h
  · cases h; rfl
  · cases h

theorem logProcess_defaults (A : Arith K) (ps qs : List (LogParam K)) (b b' : Base K)
    (hp : ∀ p ∈ ps, ∃ ch, p = logDefault ch ∧ ∀ t, ch = some t → t ∈ ["R", "G", "B"])
    (hq : ∀ p ∈ qs, ∃ ch, p = logDefault ch ∧ ∀ t, ch = some t → t ∈ ["R", "G", "B"])
    (hb : b.attrs = b'.attrs) (v : List (Flt K)) (s : ℕ) :
    logProcess A ps b v s = logProcess A qs b' v s := by
  obtain ⟨a1, a2, a3, ha⟩ := logParams_defaults ps hp
  obtain ⟨c1, c2, c3, hc⟩ := logParams_defaults qs hq
  have hb1 : ∀ k, b.attrE k = b'.attrE k := fun k => by unfold Base.attrE; rw [hb]
  have hb2 : b.styleOf "style" = b'.styleOf "style" := by unfold Base.styleOf; rw [hb]
  unfold logProcess
  rw [ha, hc, hb1, hb1, hb2]
  cases b'.attrE "inBitDepth" with
  | error e => rfl
  | ok d1 =>
    cases b'.attrE "outBitDepth" with
    | error e => rfl
    | ok d2 =>
      simp only [py_ok_bind]
      congr 1
      funext px
      cases hf : logStyle A (b'.styleOf "style") with
      | none => rfl
      | some f =>
        simp only
        congr 1
        funext i x
        have hs := fun a b => logStyle_channel A _ f hf a b
        match i with
        | 0 => simp only [pyGet, List.getElem?_cons_zero, py_ok_bind]; rw [hs a1 c1]
        | 1 => simp only [pyGet, List.getElem?_cons_succ, List.getElem?_cons_zero, py_ok_bind]; rw [hs a2 c2]
        | 2 => simp only [pyGet, List.getElem?_cons_succ, List.getElem?_cons_zero, py_ok_bind]; rw [hs a3 c3]
        | i + 3 => rfl

/-- `LogParams` elements that give no numbers change nothing about a node.  Missing: Gamma. -/
theorem C129_log_partial (A : Arith K) (compat : ℕ) (load : String → Py (Option (List (Node K))))
    (strict : Bool) (x y : Xml) (n m : Node K) (hx : Spec.Named x.tag "Log") (ht : y.tag = x.tag)
    (ha : y.attrs = x.attrs)
    (h1 : ∀ c ∈ x.children, Spec.Named c.tag "LogParams" →
      Spec.GivesNothing ["gamma", "refWhite", "refBlack", "highlight", "shadow"] c)
    (h2 : ∀ c ∈ y.children, ¬ Spec.Named c.tag "LogParams")
    (hn : readNode A compat load strict x = .ok n) (hm : readNode A compat load strict y = .ok m)
    (compat' s : ℕ) (v : List (Flt K)) : n.process A compat' s v = m.process A compat' s v := by
  have hy : Spec.Named y.tag "Log" := ht ▸ hx
  have e := (readNode_attrs A compat load strict x n hn).trans
    ((by rw [ha, ht] : _ = _).trans (readNode_attrs A compat load strict y m hm).symm)
  obtain ⟨ps, b, cs, rfl, g1, g2⟩ := C128_log A compat load strict x n hx hn
  obtain ⟨qs, b', ds, rfl, g3, g4⟩ := C128_log A compat load strict y m hy hm
  have hds : ds = [] := Picked.nil_of g3 h2
  subst hds
  cases g4
  have hcs := Picked.forall g1 h1
  refine logProcess_defaults A ps [] b b' ?_ (by simp) e v s
  clear e g1 hn hm
  induction g2 with
  | nil => simp
  | @cons c p cs ps hcp _ ih =>
    rw [List.forall_mem_cons]
    refine ⟨?_, ih fun d hd => hcs d (by simp [hd])⟩
    obtain ⟨k1, k2⟩ := hcs c (by simp)
    obtain ⟨a1, a2, a3, a4, a5, a6⟩ := hcp
    simp only [Spec.Given, k1 "gamma" (by simp), k1 "refWhite" (by simp), k1 "refBlack" (by simp),
      k1 "highlight" (by simp), k1 "shadow" (by simp)] at a1 a2 a3 a4 a5
    exact ⟨p.channel, by cases p; simp_all [logDefault], fun t ht => k2 t (a6 ▸ ht)⟩

example (A : Arith ℚ) : ∃ n m,
    readNode A 1 (fun _ => .ok none) true (.mk "Log" [("style", "logToLin")] none
      [.mk "LogParams" [("channel", "G")] none []]) = .ok n ∧
    readNode A 1 (fun _ => .ok none) true (.mk "Log" [("style", "logToLin")] none []) = .ok m :=
  ⟨_, _, rfl, rfl⟩

/-- So for `ECParams`. -/
theorem C129_contrast_partial (A : Arith K) (compat : ℕ) (load : String → Py (Option (List (Node K))))
    (strict : Bool) (x y : Xml) (n m : Node K) (hx : Spec.Named x.tag "ExposureContrast")
    (ht : y.tag = x.tag) (ha : y.attrs = x.attrs)
    (h1 : ∀ c ∈ x.children, Spec.Named c.tag "ECParams" →
      ∀ key ∈ ["exposure", "contrast", "pivot"], c.attrs.lookup key = none)
    (h2 : ∀ c ∈ y.children, ¬ Spec.Named c.tag "ECParams")
    (hn : readNode A compat load strict x = .ok n) (hm : readNode A compat load strict y = .ok m)
    (compat' s : ℕ) (v : List (Flt K)) : n.process A compat' s v = m.process A compat' s v := by
  have hy : Spec.Named y.tag "ExposureContrast" := ht ▸ hx
  have e := (readNode_attrs A compat load strict x n hn).trans
    ((by rw [ha, ht] : _ = _).trans (readNode_attrs A compat load strict y m hm).symm)
  obtain ⟨e1, c1, p1, b, cs, rfl, g1, g2⟩ := C128_contrast A compat load strict x n hx hn
  obtain ⟨e2, c2, p2, b', ds, rfl, g3, g4⟩ := C128_contrast A compat load strict y m hy hm
  have hds : ds = [] := Picked.nil_of g3 h2
  subst hds
  obtain ⟨rfl, rfl, rfl⟩ := g4
  have hcs := Picked.forall g1 h1
  have h3 : e1 = .fin 0 ∧ c1 = .fin 1 ∧ p1 = .fin 1 := by
    cases hl : cs.getLast? with
    | none => rw [hl] at g2; exact g2
    | some d =>
      rw [hl] at g2
      have k := hcs d (List.mem_of_getLast? hl)
      simpa only [Spec.Given, k "exposure" (by simp), k "contrast" (by simp), k "pivot" (by simp)] using g2
  obtain ⟨rfl, rfl, rfl⟩ := h3
  show ecProcess A _ _ _ b v s = ecProcess A _ _ _ b' v s
  simp only [Node.base] at e
  have hb1 : ∀ k, b.attrE k = b'.attrE k := fun k => by unfold Base.attrE; rw [e]
  have hb2 : b.styleOf "style" = b'.styleOf "style" := by unfold Base.styleOf; rw [e]
  unfold ecProcess
  rw [hb1, hb1, hb2]

example (A : Arith ℚ) : ∃ n m,
    readNode A 1 (fun _ => .ok none) true (.mk "ExposureContrast" [] none
      [.mk "ECParams" [] none []]) = .ok n ∧
    readNode A 1 (fun _ => .ok none) true (.mk "ExposureContrast" [] none []) = .ok m :=
  ⟨_, _, rfl, rfl⟩

end CLF
