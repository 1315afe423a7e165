import Verif.Lemmas.RoundedAlpha
import Verif.Props.RoundedTree
import Verif.Props.Nodes

/-! # C151: colours and further channels -/

set_option linter.unusedSectionVars false

namespace CLF

variable {K : Type} [Field K] [LinearOrder K] [IsStrictOrderedRing K] [FloorRing K]

theorem coloursOf_flatten {α : Type} {s : ℕ} (hs : 3 ≤ s) : ∀ (pixels : List (List α)), (∀ p ∈ pixels, p.length = s) →
    Spec.coloursOf s pixels.flatten = (pixels.map (·.take 3)).flatten
  | [], _ => by simp [Spec.coloursOf]
  | p :: ps, hp => by
    have ih := coloursOf_flatten hs ps fun q hq => hp q (by simp [hq])
    have hl := hp p (by simp)
    have hf : ∀ qs : List (List α), (∀ q ∈ qs, q.length = s) → qs.flatten.length = qs.length * s := by
      intro qs hq
      have h1 : qs.map List.length = List.replicate qs.length s := by
        rw [List.eq_replicate_iff]
        exact ⟨by simp, by simpa using hq⟩
      rw [List.length_flatten, h1]; simp
    have h0 : 0 < s := by omega
    unfold Spec.coloursOf at ih ⊢
    rw [hf _ hp, Nat.mul_div_cancel _ h0, List.length_cons, List.range_succ_eq_map, List.flatMap_cons, List.flatMap_map, List.flatten_cons]
    rw [hf _ fun q hq => hp q (by simp [hq]), Nat.mul_div_cancel _ h0] at ih
    rw [List.map_cons, List.flatten_cons (l := p.take 3), ← ih]
    congr 1
    · simp only [Nat.zero_mul, List.drop_zero]
      rw [List.take_append_of_le_length (by omega)]
    · congr 1
      funext q
      have : (q + 1) * s = p.length + q * s := by rw [hl, Nat.succ_mul, Nat.add_comm]
      rw [Nat.succ_eq_add_one, this, ← List.drop_drop, List.drop_left]

theorem whole_pixels {α : Type} {s : ℕ} (hs : 0 < s) {v : List α} (hv : s ∣ v.length) : ∃ pixels : List (List α), v = pixels.flatten ∧ ∀ p ∈ pixels, p.length = s := by
  obtain ⟨cs, tail, rfl, hc, ht⟩ := exists_chunks s hs v
  have hl : cs.flatten.length = cs.length * s := by
    have h1 : cs.map List.length = List.replicate cs.length s := by
      rw [List.eq_replicate_iff]
      exact ⟨by simp, by simpa using hc⟩
    rw [List.length_flatten, h1]; simp
  rw [List.length_append, hl] at hv
  have : s ∣ tail.length := (Nat.dvd_add_right (Dvd.intro_left _ rfl)).mp hv
  obtain rfl : tail = [] := List.length_eq_zero_iff.mp (Nat.eq_zero_of_dvd_of_lt this ht)
  exact ⟨cs, by simp, hc⟩

theorem flatten_get {α : Type} {s c : ℕ} (hc : c < s) : ∀ (pixels : List (List α)), (∀ p ∈ pixels, p.length = s) → ∀ k, pixels.flatten[k * s + c]? = pixels[k]?.bind (·[c]?)
  | [], _, k => by simp
  | p :: ps, hp, k => by
    have hl := hp p (by simp)
    cases k with
    | zero =>
      rw [List.flatten_cons, List.getElem?_append_left (by omega)]
      simp
    | succ k =>
      rw [List.flatten_cons, List.getElem?_append_right (by rw [hl, Nat.succ_mul]; omega)]
      have : (k + 1) * s + c - p.length = k * s + c := by rw [hl, Nat.succ_mul]; omega
      rw [this, flatten_get hc ps (fun q hq => hp q (by simp [hq])) k]
      simp

theorem list_agree (E : Evaluator K) (compat : ℕ) (ns : List (Node K)) (hns : ∀ n ∈ ns, Spec.Colours n) {s : ℕ} (hs : 3 ≤ s) (pixels : List (List (Flt K)))
    (hp : ∀ p ∈ pixels, p.length = s) :
    (∃ e, processListR E compat ns pixels.flatten s = .error e ∧ processListR E compat ns (pixels.map (·.take 3)).flatten 3 = .error e) ∨
    ∃ outs : List (List (Flt K)), outs.length = pixels.length ∧ (∀ p ∈ outs, p.length = s) ∧ processListR E compat ns pixels.flatten s = .ok outs.flatten ∧
      processListR E compat ns (pixels.map (·.take 3)).flatten 3 = .ok (outs.map (·.take 3)).flatten ∧
      ((∀ n ∈ ns, Spec.KeepsAlpha n) ∧ AlphaFits E.rounding pixels → outs.map (·.drop 3) = pixels.map (·.drop 3)) := by
  obtain ⟨qs, k1, k2, k3, k4, k5⟩ := copy_agree E.rounding pixels hp
  unfold processListR
  simp only [k3, k4]
  rcases nodes_agree E compat hs ns hns false none qs k2 ⟨qs.flatten, qs.flatten, true⟩ ⟨(qs.map (·.take 3)).flatten, (qs.map (·.take 3)).flatten, true⟩ rfl rfl with
    ⟨e, r1, r2⟩ | ⟨outs, q, q', r1, r2, r3, r4, r5, r6, r7⟩
  · exact .inl ⟨e, by rw [r1]; rfl, by rw [r2]; rfl⟩
  · refine .inr ⟨outs, r1.trans k1, r2, by rw [r3, ← r5]; rfl, by rw [r4, ← r6]; rfl, fun h => ?_⟩
    exact (r7 ⟨h.1, alphaFits_of_drop (k5 h.2) h.2⟩).trans (k5 h.2)

theorem flatten_length {α : Type} {s : ℕ} {qs : List (List α)} (hq : ∀ q ∈ qs, q.length = s) : qs.flatten.length = qs.length * s := by
  have h1 : qs.map List.length = List.replicate qs.length s := by
    rw [List.eq_replicate_iff]
    exact ⟨by simp, by simpa using hq⟩
  rw [List.length_flatten, h1]; simp

/-- C151: whatever the arithmetic, a list run over pixels of `s` channels fails as it does over their first three channels, or gives pixels of `s`
channels whose first three are what it gives there. -/
theorem C151_colours (E : Evaluator K) (compat : ℕ) (ns : List (Node K)) (hns : ∀ n ∈ ns, Spec.Colours n) (s : ℕ) (hs : 3 ≤ s) (v : List (Flt K))
    (hv : s ∣ v.length) :
    (∃ e, processListR E compat ns v s = .error e ∧ processListR E compat ns (Spec.coloursOf s v) 3 = .error e) ∨
    ∃ w, processListR E compat ns v s = .ok w ∧ w.length = v.length ∧ processListR E compat ns (Spec.coloursOf s v) 3 = .ok (Spec.coloursOf s w) := by
  obtain ⟨pixels, rfl, hp⟩ := whole_pixels (by omega) hv
  rw [coloursOf_flatten hs pixels hp]
  rcases list_agree E compat ns hns hs pixels hp with h | ⟨outs, k1, k2, k3, k4, _⟩
  · exact .inl h
  · exact .inr ⟨_, k3, by rw [flatten_length k2, flatten_length hp, k1], by rw [k4, coloursOf_flatten hs outs k2]⟩

/-- C151: so two arrays with the same colours give the same colours, whatever is in the further channels. -/
theorem C151_same (E : Evaluator K) (compat : ℕ) (ns : List (Node K)) (hns : ∀ n ∈ ns, Spec.Colours n) (s t : ℕ) (hs : 3 ≤ s) (ht : 3 ≤ t) (v w : List (Flt K))
    (hv : s ∣ v.length) (hw : t ∣ w.length) (h : Spec.coloursOf s v = Spec.coloursOf t w) :
    (processListR E compat ns v s).map (Spec.coloursOf s) = (processListR E compat ns w t).map (Spec.coloursOf t) := by
  have one : ∀ (s : ℕ) (hs : 3 ≤ s) (v : List (Flt K)) (hv : s ∣ v.length),
      (processListR E compat ns v s).map (Spec.coloursOf s) = processListR E compat ns (Spec.coloursOf s v) 3 := by
    intro s hs v hv
    rcases C151_colours E compat ns hns s hs v hv with ⟨e, a1, a2⟩ | ⟨x, a1, -, a2⟩ <;> rw [a1, a2] <;> rfl
  rw [one s hs v hv, one t ht w hw, h]

/-- C151: without Ranges, ExposureContrast nodes and bypassed nodes, the further channels come out as they were, if copies leave them alone. -/
theorem C151_alpha (E : Evaluator K) (compat : ℕ) (ns : List (Node K)) (hns : ∀ n ∈ ns, Spec.Colours n) (hk : ∀ n ∈ ns, Spec.KeepsAlpha n) (s : ℕ) (hs : 3 ≤ s)
    (v w : List (Flt K)) (hv : s ∣ v.length) (ha : ∀ i x, 3 ≤ i % s → v[i]? = some x → E.rounding single x = x) (h : processListR E compat ns v s = .ok w) (i : ℕ)
    (hi : 3 ≤ i % s) : w[i]? = v[i]? := by
  obtain ⟨pixels, rfl, hp⟩ := whole_pixels (by omega) hv
  have h0 : 0 < s := by omega
  have fits : AlphaFits E.rounding pixels := by
    intro p hpm x hx
    obtain ⟨k, hk, rfl⟩ := List.mem_iff_getElem.mp hpm
    obtain ⟨c, hc, rfl⟩ := List.mem_iff_getElem.mp hx
    rw [List.length_drop, hp _ hpm] at hc
    refine ha (k * s + (3 + c)) _ ?_ ?_
    · rw [Nat.mul_comm, Nat.mul_add_mod, Nat.mod_eq_of_lt (by omega)]; omega
    · rw [flatten_get (by omega) pixels hp, List.getElem?_eq_getElem hk]
      simp only [Option.bind_some, List.getElem_drop]
      exact List.getElem?_eq_getElem (by rw [hp _ hpm]; omega)
  rcases list_agree E compat ns hns hs pixels hp with ⟨e, k1, _⟩ | ⟨outs, k1, k2, k3, k4, k5⟩
  · rw [k1] at h; cases h
  · rw [k3] at h
    cases h
    have hd := k5 ⟨hk, fits⟩
    have hlt := Nat.mod_lt i h0
    rw [show i = i / s * s + i % s by rw [Nat.mul_comm]; exact (Nat.div_add_mod i s).symm]
    rw [flatten_get hlt outs k2, flatten_get hlt pixels hp]
    have hq : (outs[i / s]?).map (·.drop 3) = (pixels[i / s]?).map (·.drop 3) := by
      rw [← List.getElem?_map, ← List.getElem?_map, hd]
    have key : ∀ o : Option (List (Flt K)), o.bind (·[i % s]?) = (o.map (·.drop 3)).bind (·[i % s - 3]?) := by
      intro o
      cases o with
      | none => rfl
      | some l =>
        simp only [Option.bind_some, Option.map_some, List.getElem?_drop]
        rw [Nat.add_sub_of_le hi]
    rw [key, key, hq]

/-- C151: the same for the model without rounding. -/
theorem C151_exact (A : Arith K) (hA : A.Exact) (compat : ℕ) (ns : List (Node K)) (hns : ∀ n ∈ ns, Spec.Colours n) (s : ℕ) (hs : 3 ≤ s) (v : List (Flt K))
    (hv : s ∣ v.length) :
    (processList A compat ns v s).map (Spec.coloursOf s) = processList A compat ns (Spec.coloursOf s v) 3 := by
  rw [← C133_exact A hA compat fun _ => single, ← C133_exact A hA compat fun _ => single]
  rcases C151_colours ⟨unrounded, fun _ => single, A⟩ compat ns hns s hs v hv with ⟨e, a1, a2⟩ | ⟨x, a1, -, a2⟩ <;> rw [a1, a2] <;> rfl

/-- C151: so all that is known of lists over three channels in IEEE arithmetic is known of the colours of pixels with further channels: they are off from
what the list stands for by no more than its budget. -/
theorem C151_accurate (E : Evaluator K) (hE : E.rounding = ieee) (compat : ℕ) (ns : List (Node K)) (hns : ∀ n ∈ ns, Spec.Colours n) (ss : List (Spec.Stage K))
    (h : Carries E compat false none ns ss) (B e : K) (hb : Spec.Budget ss B 0 e) (stride : ℕ) (pixels : List ((Fin 3 → K) × List (Flt K)))
    (hst : ∀ q ∈ pixels, q.2.length + 3 = stride) (hs3 : 3 ≤ stride) (hp : ∀ q ∈ pixels, ∀ i, Spec.IsSingle (q.1 i) ∧ |q.1 i| ≤ B) :
    ∃ outs : List ((Fin 3 → K) × List (Flt K)), processListR E compat ns (Spec.image pixels) stride = .ok (Spec.image outs) ∧
      List.Forall₂ (fun q r => r.2.length + 3 = stride ∧ ∀ i, Spec.IsSingle (r.1 i) ∧ |r.1 i - Spec.evalChain ss q.1 i| ≤ e) pixels outs := by
  obtain ⟨g, hg, hg'⟩ := C148_list E hE compat ns ss h B e hb (pixels.map Prod.fst) (by
    intro p hpm
    obtain ⟨q, hq, rfl⟩ := List.mem_map.mp hpm
    exact hp q hq)
  have hpx : ∀ p ∈ pixels.map (fun q => Spec.fins q.1 ++ q.2), p.length = stride := by
    intro p hpm
    obtain ⟨q, hq, rfl⟩ := List.mem_map.mp hpm
    rw [List.length_append, ← hst q hq, Nat.add_comm]
    simp [Spec.fins]
  have hf3 : ∀ x : Fin 3 → K, (Spec.fins x).length = 3 := fun x => by simp [Spec.fins]
  have htk : (pixels.map (fun q => Spec.fins q.1 ++ q.2)).map (·.take 3) = (pixels.map Prod.fst).map Spec.fins := by
    rw [List.map_map, List.map_map]
    refine List.map_congr_left fun q _ => ?_
    exact List.take_left' (hf3 q.1)
  have hrgb : ((pixels.map (fun q => Spec.fins q.1 ++ q.2)).map (·.take 3)).flatten = Spec.rgb (pixels.map Prod.fst) := by rw [htk]; rfl
  rcases list_agree E compat ns hns hs3 _ hpx with ⟨x, k1, k2⟩ | ⟨outs, k1, k2, k3, k4, _⟩
  · rw [hrgb, hg] at k2; cases k2
  · rw [hrgb, hg] at k4
    have hflat : (((pixels.map Prod.fst).map g).map Spec.fins).flatten = (outs.map (·.take 3)).flatten := Except.ok.inj k4
    have hcol : ((pixels.map Prod.fst).map g).map Spec.fins = outs.map (·.take 3) := by
      refine List.eq_iff_flatten_eq.mpr ⟨hflat, ?_⟩
      have h1 : ∀ l : List (Fin 3 → K), ((l.map Spec.fins).map List.length) = List.replicate l.length 3 := fun l => by
        rw [List.map_map, List.eq_replicate_iff]
        refine ⟨by simp, fun x hx => ?_⟩
        obtain ⟨y, _, rfl⟩ := List.mem_map.mp hx
        exact hf3 y
      have h2 : (outs.map (·.take 3)).map List.length = List.replicate outs.length 3 := by
        rw [List.map_map, List.eq_replicate_iff]
        refine ⟨by simp, fun x hx => ?_⟩
        obtain ⟨y, hy, rfl⟩ := List.mem_map.mp hx
        simp only [Function.comp_apply, List.length_take, k2 y hy]
        omega
      rw [h1, h2, k1]
      simp
    refine ⟨List.zipWith (fun q o => (g q.1, o.drop 3)) pixels outs, ?_, ?_⟩
    · rw [show Spec.image pixels = (pixels.map (fun q => Spec.fins q.1 ++ q.2)).flatten from rfl, k3]
      unfold Spec.image
      congr 2
      rw [List.length_map] at k1
      clear * - hcol k1
      induction pixels generalizing outs with
      | nil => simpa using k1
      | cons q ps ih =>
        cases outs with
        | nil => simp at k1
        | cons o os =>
          simp only [List.map_cons, List.cons.injEq] at hcol
          simp only [List.zipWith_cons_cons, List.map_cons, hcol.1, List.take_append_drop]
          rw [← ih os (by simpa using k1) hcol.2]
    · rw [List.length_map] at k1
      rw [List.forall₂_iff_get]
      refine ⟨by simp [k1], fun i h1 h2 => ?_⟩
      have hm : pixels.get ⟨i, h1⟩ ∈ pixels := List.get_mem ..
      have := hg' _ (List.mem_map_of_mem hm)
      simp only [List.get_eq_getElem, List.getElem_zipWith] at this ⊢
      refine ⟨?_, this⟩
      rw [List.length_drop, k2 _ (List.getElem_mem _)]
      omega

/-! ## Examples -/

/-- Any list of `doubler` and `adder`, in groups or not. -/
theorem doubler_colours : Spec.Colours doubler := .leaf fun a d ha hd => by
  have : a = twice := by
    have h : (.ok twice : Py (Arr ℚ)) = .ok a := ha
    cases h; rfl
  subst this
  have h : (some 3 : Option ℕ) = some d := hd
  cases h
  exact le_refl _

theorem adder_colours : Spec.Colours adder := .leaf trivial

/-- A group that adds, and a Matrix. -/
def mixedList : List (Node ℚ) := [.group { attrs := [] } [adder], doubler]

theorem mixed_colours : ∀ n ∈ mixedList, Spec.Colours n := by
  intro n hn
  simp only [mixedList, List.mem_cons, List.not_mem_nil, or_false] at hn
  rcases hn with rfl | rfl
  · exact .group fun c hc => by rw [List.mem_singleton.mp hc]; exact adder_colours
  · exact doubler_colours

/-- Whatever the alpha of a pixel is, infinite or NaN, its colours come out the same. -/
example (lib : Arith ℚ) (table : Base ℚ → Fmt) (a b : Flt ℚ) :
    (processListR ⟨ieee, table, lib⟩ autodesk mixedList [.fin 1, .fin (1 / 3), .fin (-2), a] 4).map (Spec.coloursOf 4)
      = (processListR ⟨ieee, table, lib⟩ autodesk mixedList [.fin 1, .fin (1 / 3), .fin (-2), b, .nan] 5).map (Spec.coloursOf 5) :=
  C151_same _ _ _ mixed_colours 4 5 (by norm_num) (by norm_num) _ _ (by simp) (by simp) (by simp [Spec.coloursOf, List.range_succ])

/-- Such a list on a pixel with alpha. -/
example : processListR ⟨ieee, fun _ => single, ratArith⟩ autodesk mixedList [.fin 1, .fin (1 / 2), .fin (-2), .inf true] 4
    = .ok [.fin 4, .fin 3, .fin (-2), .inf true] := by
  decide +kernel

/-- A Matrix keeps alpha. -/
example (lib : Arith ℚ) (table : Base ℚ → Fmt) (a : ℚ) (ha : Spec.IsSingle a) (w : List (Flt ℚ))
    (h : processListR ⟨ieee, table, lib⟩ autodesk [doubler] [.fin 1, .fin (1 / 3), .fin (-2), .fin a] 4 = .ok w) : w[3]? = some (.fin a) := by
  refine C151_alpha _ _ _ ?_ ?_ 4 (by norm_num) _ w (by simp) ?_ h 3 (by norm_num)
  · intro n hn; rw [List.mem_singleton.mp hn]; exact doubler_colours
  · intro n hn; rw [List.mem_singleton.mp hn]; exact .leaf trivial rfl
  · intro i x hi hx
    have : i < 4 := by
      by_contra hc
      rw [List.getElem?_eq_none (by simpa using hc)] at hx
      cases hx
    obtain rfl : i = 3 := by omega
    cases hx
    exact ha

/-- C151: not so for a Range, which changes alpha too. -/
theorem C151_alpha_false : ∃ (ns : List (Node ℚ)) (v w : List (Flt ℚ)), (∀ n ∈ ns, Spec.Colours n) ∧
    processListR ⟨ieee, fun _ => single, ratArith⟩ autodesk ns v 4 = .ok w ∧ v[3]? = some (.fin 1) ∧ w[3]? = some (.fin 2) :=
  ⟨[adder], [.fin 0, .fin 0, .fin 0, .fin 1], [.fin 1, .fin 1, .fin 1, .fin 2], by
    intro n hn; rw [List.mem_singleton.mp hn]; exact adder_colours, by decide +kernel, rfl, rfl⟩

/-- A Matrix with a row for alpha, which adds it to red. -/
def alphaMatrix : Node ℚ :=
  .leaf .matrix
    { attrs := [("inBitDepth", .str "32f"), ("outBitDepth", .str "32f")]
      elements := [.array ⟨[4, 4, 4], [.fin 1, .fin 0, .fin 0, .fin 1, .fin 0, .fin 1, .fin 0, .fin 0, .fin 0, .fin 0, .fin 1, .fin 0, .fin 0, .fin 0, .fin 0, .fin 1],
        false, false, ""⟩] }

/-- C151: not so for Matrices with four rows, which fail on three channels and let alpha into the colours. -/
theorem C151_colours_false : ∃ (n : Node ℚ) (e : PyErr),
    processListR ⟨ieee, fun _ => single, ratArith⟩ autodesk [n] [.fin 1, .fin 1, .fin 1] 3 = .error e ∧
    processListR ⟨ieee, fun _ => single, ratArith⟩ autodesk [n] [.fin 1, .fin 1, .fin 1, .fin 0] 4 = .ok [.fin 1, .fin 1, .fin 1, .fin 0] ∧
    processListR ⟨ieee, fun _ => single, ratArith⟩ autodesk [n] [.fin 1, .fin 1, .fin 1, .fin 1] 4 = .ok [.fin 2, .fin 1, .fin 1, .fin 1] :=
  ⟨alphaMatrix, .indexError, by decide +kernel, by decide +kernel, by decide +kernel⟩

/-- Video levels in a group, a bypassed Matrix and a missing file, on pixels of any number of channels. -/
example (E : Evaluator ℝ) (hE : E.rounding = ieee) (stride : ℕ) (h3 : 3 ≤ stride) (pixels : List ((Fin 3 → ℝ) × List (Flt ℝ)))
    (hst : ∀ q ∈ pixels, q.2.length + 3 = stride) (hp : ∀ q ∈ pixels, ∀ i, ∃ n : ℕ, n ≤ 1023 ∧ q.1 i = n) :
    ∃ outs : List ((Fin 3 → ℝ) × List (Flt ℝ)), processListR E autodesk sampleTree (Spec.image pixels) stride = .ok (Spec.image outs) ∧
      List.Forall₂ (fun q r => ∀ i, |r.1 i - (q.1 i - 64) / 876| ≤ 2 / 10 ^ 5) pixels outs := by
  obtain ⟨e, hb, he⟩ := legal_budget
  have sz : ∀ p ∈ pixels, ∀ i, 0 ≤ p.1 i ∧ p.1 i ≤ 1023 ∧ Spec.IsSingle (p.1 i) := by
    intro p hp' i
    obtain ⟨n, hn, e⟩ := hp p hp' i
    rw [e]
    exact ⟨n.cast_nonneg, by exact_mod_cast hn, isSingle_nat (by omega)⟩
  have hns : ∀ n ∈ sampleTree, Spec.Colours n := by
    intro n hn
    simp only [sampleTree, List.mem_cons, List.not_mem_nil, or_false] at hn
    rcases hn with rfl | rfl | rfl
    · exact .group fun c hc => by rw [List.mem_singleton.mp hc]; exact .leaf trivial
    · exact .leaf fun a d ha _ => by
        cases ha
    · exact .missing
  obtain ⟨outs, h1, h2⟩ := C151_accurate E hE autodesk _ hns _ (sampleTree_carries E hE) 1023 e hb stride pixels hst h3
    fun p hp' i => ⟨(sz p hp' i).2.2, abs_le.mpr ⟨by linarith [(sz p hp' i).1], (sz p hp' i).2.1⟩⟩
  refine ⟨outs, h1, ?_⟩
  rw [List.forall₂_iff_get] at h2 ⊢
  refine ⟨h2.1, fun i h1 h2' j => ?_⟩
  have hm : pixels.get ⟨i, h1⟩ ∈ pixels := List.get_mem ..
  rw [← legal_chain (sz _ hm j).1 (sz _ hm j).2.1]
  exact ((h2.2 i h1 h2').2 j).2.trans he

end CLF
