import Verif.Model.ArrayObject
import Verif.Props.Read
import Verif.Props.ArrayText
import Verif.Lemmas.RoundTripList

/-! # Property C132: extensions that are switched off -/

set_option linter.unusedSectionVars false

namespace CLF

variable {K : Type} [Field K] [LinearOrder K] [IsStrictOrderedRing K] [FloorRing K]

namespace Spec

/-- The features after the calls. -/
def featuresAfter (m : ℕ) : List (ArrCall K) → ℕ
  | [] => m
  | .setFeatureCompatibility m' :: cs => featuresAfter m' cs
  | _ :: cs => featuresAfter m cs

/-- What a table holds after the calls: each part is what was given last; an encoding given while
encodings are switched off is the plain one. -/
structure Holds (m : ℕ) (a : Arr K) (cs : List (ArrCall K)) (a' : Arr K) : Prop where
  dims : a'.dims = (cs.reverse.findSome? fun | .setDimensions x => some x | _ => none).getD a.dims
  values : a'.values = (cs.reverse.findSome? fun | .setValues x => some x | _ => none).getD a.values
  integers : a'.integers = (cs.reverse.findSome? fun | .setValuesAreIntegers x => some x | _ => none).getD a.integers
  rawHalfs : a'.rawHalfs = (cs.reverse.findSome? fun | .setRawHalfs x => some x | _ => none).getD a.rawHalfs
  untouched : (∀ s, ArrCall.setFloatEncoding s ∉ cs) → a'.floatEncoding = a.floatEncoding
  encoding : ∀ pre s post, cs = pre ++ .setFloatEncoding s :: post → (∀ t, ArrCall.setFloatEncoding t ∉ post) →
    (enabled (featuresAfter m pre) 2 → a'.floatEncoding = s) ∧
    (¬ enabled (featuresAfter m pre) 2 → a'.floatEncoding = "string")

end Spec

theorem arrRun_snoc (s : ArrState K) (cs : List (ArrCall K)) (c : ArrCall K) :
    arrRun s (cs ++ [c]) = (arrStep (arrRun s cs) c).1 := by
  unfold arrRun; rw [List.foldl_append]; rfl

theorem arrRun_append (s : ArrState K) (cs ds : List (ArrCall K)) :
    arrRun s (cs ++ ds) = arrRun (arrRun s cs) ds := by
  unfold arrRun; rw [List.foldl_append]

theorem arrRun_compat (s : ArrState K) (cs : List (ArrCall K)) :
    (arrRun s cs).compat = Spec.featuresAfter s.compat cs := by
  induction cs generalizing s with
  | nil => rfl
  | cons c cs ih =>
    have h : arrRun s (c :: cs) = arrRun (arrStep s c).1 cs := rfl
    rw [h, ih]
    cases c <;> simp only [arrStep, Spec.featuresAfter]
    split <;> rfl

theorem arrRun_encoding (s : ArrState K) (cs : List (ArrCall K)) (h : ∀ t, ArrCall.setFloatEncoding t ∉ cs) :
    (arrRun s cs).arr.floatEncoding = s.arr.floatEncoding := by
  induction cs generalizing s with
  | nil => rfl
  | cons c cs ih =>
    have e : arrRun s (c :: cs) = arrRun (arrStep s c).1 cs := rfl
    rw [e, ih _ fun t ht => h t (List.mem_cons_of_mem _ ht)]
    cases c with
    | setFloatEncoding t => exact absurd (List.mem_cons_self ..) (h t)
    | _ => rfl

/-- C132: after every sequence of calls an array holds what was given last; an encoding given while
encodings are switched off is lost. -/
theorem C132_object (s : ArrState K) (cs : List (ArrCall K)) :
    Spec.Holds s.compat s.arr cs (arrRun s cs).arr := by
  constructor
  · induction cs using List.reverseRecOn with
    | nil => rfl
    | append_singleton cs c ih =>
      rw [arrRun_snoc, List.reverse_append, List.reverse_singleton, List.singleton_append, List.findSome?_cons]
      cases c <;> simp only [arrStep] <;> first | exact ih | rfl | (split <;> exact ih)
  · induction cs using List.reverseRecOn with
    | nil => rfl
    | append_singleton cs c ih =>
      rw [arrRun_snoc, List.reverse_append, List.reverse_singleton, List.singleton_append, List.findSome?_cons]
      cases c <;> simp only [arrStep] <;> first | exact ih | rfl | (split <;> exact ih)
  · induction cs using List.reverseRecOn with
    | nil => rfl
    | append_singleton cs c ih =>
      rw [arrRun_snoc, List.reverse_append, List.reverse_singleton, List.singleton_append, List.findSome?_cons]
      cases c <;> simp only [arrStep] <;> first | exact ih | rfl | (split <;> exact ih)
  · induction cs using List.reverseRecOn with
    | nil => rfl
    | append_singleton cs c ih =>
      rw [arrRun_snoc, List.reverse_append, List.reverse_singleton, List.singleton_append, List.findSome?_cons]
      cases c <;> simp only [arrStep] <;> first | exact ih | rfl | (split <;> exact ih)
  · exact arrRun_encoding s cs
  · rintro pre t post rfl hpost
    have e : arrRun s (pre ++ .setFloatEncoding t :: post)
        = arrRun (arrStep (arrRun s pre) (.setFloatEncoding t)).1 post := by
      rw [arrRun_append]; rfl
    rw [e, arrRun_encoding _ _ hpost, enabled_iff, ← arrRun_compat]
    show _ ∧ _
    cases hf : hasFeature (arrRun s pre).compat 2
    · refine ⟨fun h => absurd h (by simp), fun _ => ?_⟩
      simp only [arrStep, duiker, hf]; rfl
    · refine ⟨fun _ => ?_, fun h => absurd rfl h⟩
      simp only [arrStep, duiker, hf]; rfl

/-- C132: the call that gives an encoding raises exactly if encodings are switched off; no other call does. -/
theorem C132_gate (s : ArrState K) (c : ArrCall K) : (arrStep s c).2 =
    match c with
    | .setFloatEncoding _ => if s.compat &&& 2 = 0 then some .unsupportedExtension else none
    | _ => none := by
  cases c <;> try rfl
  simp only [arrStep, hasFeature, duiker]
  by_cases h : s.compat &&& 2 = 0 <;> simp [h]

/-- Encodings given with the features off and on. -/
example : (arrRun ⟨0, (⟨[], [], false, false, "hex16bit"⟩ : Arr ℚ)⟩ [.setFloatEncoding "hex32bit"]).arr.floatEncoding = "string" ∧
    (arrRun ⟨0, (⟨[], [], false, false, "string"⟩ : Arr ℚ)⟩
      [.setFeatureCompatibility 2, .setFloatEncoding "hex32bit", .setFeatureCompatibility 0]).arr.floatEncoding = "hex32bit" :=
  ⟨rfl, rfl⟩

/-- C132: with encodings switched off no array is written with one; it is written only if it is plain, or
has no whole row. -/
theorem C132_array_partial (compat : ℕ) (hf : ¬ Spec.enabled compat 2) (a : SArr K) (x : Xml)
    (h : a.write compat = .ok x) : x.attrs.get? "floatEncoding" = none ∧
      (a.floatEncoding = "string" ∨ ∃ c, Spec.rowLength a.dims = some c ∧ a.values.length < c) := by
  obtain ⟨c, rows, h1, h2, h3, h4, rfl⟩ := SArr.write_eq h
  have hf' : hasFeature compat duiker = false := by
    rw [enabled_iff] at hf
    simpa [duiker] using hf
  have key : a.floatEncoding = "string" ∨ rows = 0 := by
    by_contra hn
    rw [not_or] at hn
    have := h4 (Nat.pos_of_ne_zero hn.2)
    unfold writeEnc at this
    rw [if_pos hn.1, hf'] at this
    simp at this
  refine ⟨?_, key.imp id fun h0 => ⟨c, ?_, ?_⟩⟩
  · have hne : ¬ (0 < rows ∧ a.floatEncoding ≠ "string" ∧ knownEncoding a.floatEncoding = true) := by
      rintro ⟨u1, u2, -⟩
      rcases key with k | k
      · exact u2 k
      · omega
    rw [if_neg hne]
    simp [Xml.attrs, Dict.get?]
  · exact (columnsOf_eq _ _).mp h1
  · rw [h0] at h3
    exact (Nat.div_eq_zero_iff.mp h3.symm).resolve_left h2

/-- C132: with encodings switched off an array with one is refused, unless it has no whole row. -/
theorem C132_refused (compat : ℕ) (hf : ¬ Spec.enabled compat 2) (a : SArr K) (he : a.floatEncoding ≠ "string")
    (hi : a.integers = false) (c : ℕ) (hc : Spec.rowLength a.dims = some c) (h0 : 0 < c) (hl : c ≤ a.values.length) :
    a.write compat = .error .unsupportedExtension := by
  have hf' : hasFeature compat duiker = false := by
    rw [enabled_iff] at hf
    simpa [duiker] using hf
  have hw : ∀ s, writeRow compat a s = .error .unsupportedExtension := by
    intro s
    unfold writeRow writeEnc
    rw [hi, if_pos he, hf']
    rfl
  unfold SArr.write
  rw [(columnsOf_eq _ _).mpr hc, py_ok_bind]
  have hd : pyDivNat a.values.length c = .ok (a.values.length / c) := by
    unfold pyDivNat
    rw [if_neg h0.ne']
  rw [hd, py_ok_bind]
  obtain ⟨k, hk⟩ : ∃ k, a.values.length / c = k + 1 :=
    Nat.exists_eq_succ_of_ne_zero (Nat.div_pos hl h0).ne'
  rw [hk, List.range_succ_eq_map, List.mapM_cons, hw]
  rfl
example : (⟨[2, 1], [.fin false 0, .fin false 1], false, false, "hex16bit"⟩ : SArr ℚ).write 0 = .error .unsupportedExtension :=
  C132_refused 0 (by unfold Spec.enabled; decide) _ (by decide) rfl 1 rfl (by decide) (by decide)

theorem write_tag (compat : ℕ) (n : Node K) (f : ℕ) (hv : Spec.neededFeature (Spec.nameOf n) = some f)
    (xs : List Xml) (h : n.write compat (some false) = .ok xs) : ∃ x, xs = [x] ∧ x.tag = Spec.nameOf n := by
  have base : ∀ (tag : String) (b : Base K) (ex : List Xml), (writeBase compat tag b ex >>= fun x => (pure [x] : Py (List Xml))) = .ok xs →
      ∃ x, xs = [x] ∧ x.tag = tag := by
    intro tag b ex h
    obtain ⟨x, h1, h2⟩ := py_bind_eq_ok.mp h
    cases h2
    obtain ⟨es, h3, h4⟩ := py_bind_eq_ok.mp h1
    cases h4
    exact ⟨_, rfl, rfl⟩
  cases n with
  | leaf k b =>
    rw [Node.write] at h
    obtain ⟨x, h1, h2⟩ := base _ _ _ h
    refine ⟨x, h1, h2.trans ?_⟩
    cases k with
    | cdl cc v => cases cc <;> simp [Spec.nameOf, Spec.neededFeature] at hv
    | _ => rfl
  | group b cs =>
    rw [Node.write] at h
    obtain ⟨ys, h1, h2⟩ := py_bind_eq_ok.mp h
    exact base _ _ _ h2
  | ref b w ns =>
    rw [Node.write] at h
    exact base _ _ _ h
  | refMissing b w =>
    rw [Node.write] at h
    exact base _ _ _ h

/-- C132, nodes: a file of a list that holds a node of an extension that is switched off is refused by strict
reading with the same features. -/
theorem C132_nodes (compat : ℕ) (l : PList K) (n : Node K) (hn : n ∈ l.processes) (f : ℕ)
    (hv : Spec.neededFeature (Spec.nameOf n) = some f) (hd : ¬ Spec.enabled compat f) (x : Xml)
    (hx : l.write compat false = .ok x) (A : Arith K) (load : String → Py (Option (List (Node K)))) :
    ∃ e, readList A compat load true x.reparse = .error e := by
  unfold PList.write at hx
  obtain ⟨es, g1, g2⟩ := py_bind_eq_ok.mp hx
  obtain ⟨ns, g3, g4⟩ := py_bind_eq_ok.mp g2
  cases g4
  have hmem : ∃ y ∈ ns, y.tag = Spec.nameOf n := by
    clear hx g2
    revert hn
    generalize l.processes = ps at g3
    intro hn
    induction ps generalizing ns with
    | nil => exact absurd hn List.not_mem_nil
    | cons m ms ih =>
      rw [writeNodes] at g3
      obtain ⟨xs, h1, h2⟩ := py_bind_eq_ok.mp g3
      obtain ⟨zs, h3, h4⟩ := py_bind_eq_ok.mp h2
      cases h4
      rcases List.mem_cons.mp hn with rfl | hn'
      · obtain ⟨y, rfl, hy⟩ := write_tag compat n f hv xs h1
        exact ⟨y, by simp, hy⟩
      · obtain ⟨y, hy, ht⟩ := ih zs h3 hn'
        exact ⟨y, List.mem_append_right _ hy, ht⟩
  obtain ⟨y, hy, ht⟩ := hmem
  refine C03_rejects A compat load _ y.reparse ?_ ?_
  · rw [Xml.reparse, reparseAll_eq]
    exact List.mem_map_of_mem (List.mem_append_right _ hy)
  · have e : y.reparse.tag = Spec.nameOf n := by
      rw [← ht]
      cases y; rw [Xml.reparse]; rfl
    rw [e, admissible_iff]
    rintro ⟨-, h2⟩
    have hel : elementType (Spec.nameOf n) = Spec.nameOf n := by
      have hc : Spec.nameOf n ∈ ["ExposureContrast", "Gamma", "Log", "Reference", "Group"] := by
        unfold Spec.neededFeature at hv
        split at hv
        · rename_i h
          simp only [List.mem_cons, List.not_mem_nil, or_false] at h ⊢
          tauto
        · split at hv <;> simp_all
      generalize Spec.nameOf n = w at hc
      simp only [List.mem_cons, List.not_mem_nil, or_false] at hc
      rcases hc with rfl | rfl | rfl | rfl | rfl <;> decide
    rw [hel] at h2
    rw [← vendorOf_eq] at hv
    exact hd ((enabled_iff _ _).mpr (h2 f hv))

/-- C132 is false: with all extensions off a list of a Gamma node and a Group is written, and the file is
refused by strict reading. -/
theorem C132_nodes_false : ∃ (l : PList ℚ) (x : Xml), l.write 0 false = .ok x ∧
    (∃ c ∈ x.children, c.tag = "Gamma") ∧ (∃ c ∈ x.children, c.tag = "Group") ∧
    ∀ A load, ∃ e, readList (K := ℚ) A 0 load true x.reparse = .error e := by
  let n : Node ℚ := .leaf (.gamma []) ⟨[("style", .str "basicFwd")], [], [], []⟩
  let l : PList ℚ := { processes := [n, .group ⟨[], [], [], []⟩ []] }
  obtain ⟨x, hx⟩ : ∃ x, l.write 0 false = .ok x := ⟨_, rfl⟩
  have hx' := hx
  refine ⟨l, x, hx, ?_, ?_, fun A load => ?_⟩
  · cases hx
    exact ⟨_, List.mem_cons_self .., rfl⟩
  · cases hx
    exact ⟨_, List.mem_cons_of_mem _ (List.mem_cons_self ..), rfl⟩
  · exact C132_nodes 0 l n (List.mem_cons_self ..) 1 rfl (by unfold Spec.enabled; decide) x hx' A load

theorem unwritable (v w : Flt K) (attrs : Dict AVal) :
    PList.write 0 false { processes := [.leaf .lut1d { attrs := attrs
                                                       elements := [.array ⟨[2, 1], [v, w], false, false, "hex16bit"⟩] }] } =
      .error .unsupportedExtension := by
  have h : Arr.write 0 ⟨[2, 1], [v, w], false, false, "hex16bit"⟩ = .error .unsupportedExtension :=
    C132_refused 0 (by unfold Spec.enabled; decide) _ (by simp [Arr.toS]) rfl 1 rfl (by decide) (by simp [Arr.toS])
  have h2 : Node.write 0 (some false) (.leaf .lut1d { attrs := attrs
                                                      elements := [.array ⟨[2, 1], [v, w], false, false, "hex16bit"⟩] }) =
      .error .unsupportedExtension := by
    rw [Node.write]
    unfold writeBase
    rw [List.mapM_cons]
    have h3 : Elem.write 0 (.array ⟨[2, 1], [v, w], false, false, "hex16bit"⟩) = .error .unsupportedExtension := h
    rw [h3]
    rfl
  unfold PList.write
  rw [writeNodes, h2]
  rfl

/-- C132 is false for reading: with all extensions off an encoded table is decoded, strictly; the list read
cannot be written again. -/
theorem C132_read_false : ∃ x : Xml, ∀ (A : Arith ℚ) (load : String → Py (Option (List (Node ℚ)))),
    ∃ (l : PList ℚ) (b : Base ℚ) (a : Arr ℚ), readList A 0 load true x = .ok l ∧ l.processes = [.leaf .lut1d b] ∧
      b.array = .ok a ∧ a.floatEncoding = "hex16bit" ∧ a.dims = [2, 1] ∧ a.values = [.fin 0, .fin 1] ∧
      l.write 0 false = .error .unsupportedExtension := by
  refine ⟨.mk "ProcessList" [] none [.mk "LUT1D" [] none
    [.mk "Array" [("dim", "2 1"), ("floatEncoding", "hex16bit")] (some "0000 3c00") []]], fun A load => ?_⟩
  refine ⟨_, _, _, rfl, rfl, rfl, rfl, rfl, ?_, ?_⟩
  · show [SFlt.toFlt (SFlt.ofBits half 0), SFlt.toFlt (SFlt.ofBits half 0x3c00)] = [Flt.fin (0 : ℚ), .fin 1]
    decide +kernel
  · exact unwritable _ _ _

/-- C132, groups: nodes are kept in the order added, and the node found by name is the first of that name. -/
theorem C132_group (b : Base K) (cs : List (Node K)) (name : Option AVal) :
    groupProcesses (cs.foldl groupAdd (.group b [])) = cs ∧
    (∀ n, groupFind name cs = some n ↔
      ∃ pre post, cs = pre ++ n :: post ∧ n.attr "name" = name ∧ ∀ m ∈ pre, m.attr "name" ≠ name) ∧
    (groupFind name cs = none ↔ ∀ m ∈ cs, m.attr "name" ≠ name) := by
  refine ⟨?_, ?_, ?_⟩
  · have : ∀ ds : List (Node K), cs.foldl groupAdd (.group b ds) = .group b (ds ++ cs) := by
      induction cs with
      | nil => intro ds; simp
      | cons c cs ih => intro ds; rw [List.foldl_cons, groupAdd, ih]; simp
    rw [this]; rfl
  · intro n
    induction cs with
    | nil => simp [groupFind]
    | cons c cs ih =>
      rw [groupFind]
      by_cases h : c.attr "name" = name
      · rw [if_pos h]
        constructor
        · intro e
          cases e
          exact ⟨[], cs, rfl, h, by simp⟩
        · rintro ⟨pre, post, e, h1, h2⟩
          cases pre with
          | nil => cases e; rfl
          | cons p pre => cases e; exact absurd h (h2 _ (List.mem_cons_self ..))
      · rw [if_neg h, ih]
        constructor
        · rintro ⟨pre, post, rfl, h1, h2⟩
          refine ⟨c :: pre, post, rfl, h1, ?_⟩
          intro m hm
          rcases List.mem_cons.mp hm with rfl | hm
          · exact h
          · exact h2 m hm
        · rintro ⟨pre, post, e, h1, h2⟩
          cases pre with
          | nil => cases e; exact absurd h1 h
          | cons p pre =>
            cases e
            exact ⟨pre, post, rfl, h1, fun m hm => h2 m (List.mem_cons_of_mem _ hm)⟩
  · induction cs with
    | nil => simp [groupFind]
    | cons c cs ih =>
      rw [groupFind]
      by_cases h : c.attr "name" = name
      · simp [h]
      · simp [h, ih]

example : groupFind (some (.str "b")) [.leaf (.range : Kind ℚ) ⟨[("name", .str "a")], [], [], []⟩,
      .leaf .matrix ⟨[("name", .str "b")], [], [], []⟩, .leaf .range ⟨[("name", .str "b")], [], [], []⟩]
    = some (.leaf .matrix ⟨[("name", .str "b")], [], [], []⟩) := rfl

end CLF
