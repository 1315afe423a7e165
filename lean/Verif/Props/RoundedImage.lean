import Verif.Model.RoundedImage
import Verif.Props.ImageConvert
import Verif.Props.RoundedTree

/-! # Property C149: images through lists of nodes in IEEE arithmetic -/

set_option linter.unusedSectionVars false

namespace CLF

variable {K : Type} [Field K] [LinearOrder K] [IsStrictOrderedRing K] [FloorRing K]

/-! ## Without rounding -/

theorem arith_exact {A : Arith K} (hA : A.Exact) (t : Base K → Fmt) : (Evaluator.mk unrounded t A).arith = A := by
  obtain ⟨f, p, l⟩ := A
  simp only [Evaluator.arith, Arith.mk.injEq, and_true]
  funext x
  exact (hA x).symm

/-- C149: without rounding, the image is that of the exact model. -/
theorem C149_exact (A : Arith K) (hA : A.Exact) (compat : ℕ) (t : Base K → Fmt) (img : Option (Image K)) (ns : List (Node K)) (outBitDepth : Option AVal)
    (processes : ℕ) (schedule : List ℕ) :
    filterImageR ⟨unrounded, t, A⟩ compat img ns outBitDepth processes schedule = filterImage A compat img ns outBitDepth processes schedule := by
  have hr : ∀ r v, optRangeR (K := K) unrounded r v = optRange A r v := by
    intro r v
    unfold optRangeR optRange
    cases r with
    | none => rfl
    | some b => simp only [rangeR_exact hA]
  have hv : filterValuesR ⟨unrounded, t, A⟩ compat = filterValues A compat := by
    funext j s v
    unfold filterValuesR filterValues
    simp only [hr, C133_exact A hA]
  have hs : filterRowStrideR ⟨unrounded, t, A⟩ compat = filterRowStride A compat := by
    funext j row out
    unfold filterRowStrideR filterRowStride
    rw [hv, arith_exact hA]
  have hc : filterRowCaughtR ⟨unrounded, t, A⟩ compat = filterRowCaught A compat := by
    funext j v
    unfold filterRowCaughtR filterRowCaught filterRowParallel
    rw [hv]
    rfl
  unfold filterImageR filterImage
  rw [hc, hs, arith_exact hA]
  rfl

/-! ## Colours of an image -/

theorem rgb_drop (ps : List (Fin 3 → K)) (k : ℕ) : (Spec.rgb ps).drop (k * 3) = Spec.rgb (ps.drop k) := by
  induction ps generalizing k with
  | nil => simp [Spec.rgb]
  | cons p ps ih =>
    cases k with
    | zero => rfl
    | succ k =>
      rw [List.drop_succ_cons, ← ih k, Nat.succ_mul]
      rfl

theorem rgb_take (ps : List (Fin 3 → K)) (k : ℕ) : (Spec.rgb ps).take (k * 3) = Spec.rgb (ps.take k) := by
  induction ps generalizing k with
  | nil => simp [Spec.rgb]
  | cons p ps ih =>
    cases k with
    | zero => simp [Spec.rgb]
    | succ k =>
      rw [List.take_succ_cons, Nat.succ_mul]
      have : Spec.rgb (p :: ps.take k) = [.fin (p 0), .fin (p 1), .fin (p 2)] ++ Spec.rgb (ps.take k) := rfl
      rw [this, ← ih k]
      rfl

theorem rgb_slice (ps : List (Fin 3 → K)) (r w : ℕ) : pySlice (Spec.rgb ps) (r * w * 3) (r * w * 3 + w * 3) = Spec.rgb (pySlice ps (r * w) (r * w + w)) := by
  unfold pySlice
  rw [rgb_drop, Nat.add_sub_cancel_left, Nat.add_sub_cancel_left, rgb_take]

theorem rgb_append (ps qs : List (Fin 3 → K)) : Spec.rgb (ps ++ qs) = Spec.rgb ps ++ Spec.rgb qs := by
  simp [Spec.rgb]

theorem rgb_flatten (rows : List (List (Fin 3 → K))) : (rows.map Spec.rgb).flatten = Spec.rgb rows.flatten := by
  induction rows with
  | nil => rfl
  | cons r rows ih => rw [List.map_cons, List.flatten_cons, List.flatten_cons, rgb_append, ih]

theorem rgb_length (ps : List (Fin 3 → K)) : (Spec.rgb ps).length = ps.length * 3 := by
  induction ps with
  | nil => rfl
  | cons p ps ih =>
    have : Spec.rgb (p :: ps) = [.fin (p 0), .fin (p 1), .fin (p 2)] ++ Spec.rgb ps := rfl
    rw [this, List.length_append, ih, List.length_cons]
    simp
    ring

/-- The image holds the colours `ps`, in scan-line order. -/
def Spec.Shows (s : Samples K) (ps : List (Fin 3 → K)) : Prop :=
  match s with
  | .ints l => l.map (fun n : ℕ => Flt.fin (n : K)) = Spec.rgb ps
  | .floats l => l = Spec.rgb ps

theorem shows_slice {E : Evaluator K} (hE : E.rounding = ieee) {s : Samples K} {ps : List (Fin 3 → K)} (h : Spec.Shows s ps) (hp : ∀ p ∈ ps, ∀ i, Spec.IsSingle (p i))
    (r w : ℕ) : s.slice E.arith (r * w * 3) (r * w * 3 + w * 3) = Spec.rgb (pySlice ps (r * w) (r * w + w)) := by
  have hf : E.arith.f32 = ieee single := by simp only [Evaluator.arith, hE]
  have key : (Spec.rgb (pySlice ps (r * w) (r * w + w))).map (ieee single) = Spec.rgb (pySlice ps (r * w) (r * w + w)) :=
    copy_rgb _ fun p hp' i => hp p (List.mem_of_mem_drop (List.mem_of_mem_take hp')) i
  cases s with
  | ints l =>
    have h' : l.map (fun n : ℕ => Flt.fin (n : K)) = Spec.rgb ps := h
    simp only [Samples.slice, hf]
    rw [show (pySlice l (r * w * 3) (r * w * 3 + w * 3)).map (fun x : ℕ => ieee single (.fin (x : K)))
      = ((pySlice l (r * w * 3) (r * w * 3 + w * 3)).map fun n : ℕ => Flt.fin (n : K)).map (ieee single) by rw [List.map_map]; rfl]
    rw [show (pySlice l (r * w * 3) (r * w * 3 + w * 3)).map (fun n : ℕ => Flt.fin (n : K)) = pySlice (Spec.rgb ps) (r * w * 3) (r * w * 3 + w * 3) by
      rw [← h']; simp [pySlice, List.map_take, List.map_drop], rgb_slice, key]
  | floats l =>
    have h' : l = Spec.rgb ps := h
    simp only [Samples.slice, hf]
    rw [h', rgb_slice, key]

theorem shows_length {s : Samples K} {ps : List (Fin 3 → K)} (h : Spec.Shows s ps) : s.length = ps.length * 3 := by
  cases s with
  | ints l =>
    have h' : l.map (fun n : ℕ => Flt.fin (n : K)) = Spec.rgb ps := h
    have := congrArg List.length h'
    rwa [List.length_map, rgb_length] at this
  | floats l =>
    have h' : l = Spec.rgb ps := h
    rw [h']
    exact rgb_length ps

/-- Rows that are there. -/
theorem copyRows_some (A : Arith K) (j : Job K) (f : ℕ → List (Flt K)) (hf : ∀ i < j.height, (f i).length = j.width * j.channels) :
    copyRows A j ((List.range j.height).map fun x => some (f x)) (List.replicate (j.width * j.height * j.channels) (Flt.fin (0 : K)))
      = .ok (((List.range j.height).map f).flatten.map A.f32) := by
  have hall := copyAll_eq A (fun r => .ok (f r)) (j.width * j.channels) [] j.height 0 (fun i _ hi v hv => by
      cases hv
      exact hf i (by omega))
    [] (List.replicate (j.width * j.height * j.channels) (Flt.fin (0 : K))) (by simp) (by simp; ring)
  simp only [List.nil_append, List.append_nil, ← List.range_eq_range'] at hall
  rw [py_mapM_ok _ f _ (fun x _ => rfl), py_ok_bind] at hall
  rw [← hall]
  unfold copyRows
  refine foldlM_congr' _ (fun out i hi => ?_) _
  rw [List.mem_range] at hi
  simp only [pyGet, List.getElem?_map, List.getElem?_range hi, Option.map_some, py_ok_bind, copyInto, Nat.mul_assoc]

theorem row_slices {α : Type} (w : ℕ) : ∀ (h : ℕ) (ps : List α), ps.length = w * h →
    ((List.range h).map fun r => pySlice ps (r * w) (r * w + w)).flatten = ps
  | 0, ps, hl => by simpa using (List.length_eq_zero_iff.mp hl).symm
  | h + 1, ps, hl => by
    rw [List.range_succ_eq_map, List.map_cons, List.flatten_cons, List.map_map]
    have ih := row_slices w h (ps.drop w) (by rw [List.length_drop, hl, Nat.mul_succ, Nat.add_sub_cancel])
    have e : (List.range h).map ((fun r => pySlice ps (r * w) (r * w + w)) ∘ Nat.succ) = (List.range h).map fun r => pySlice (ps.drop w) (r * w) (r * w + w) := by
      refine List.map_congr_left fun r _ => ?_
      simp only [Function.comp, pySlice, List.drop_drop, Nat.succ_mul, Nat.add_sub_cancel_left]
      rw [Nat.add_comm w (r * w)]
    rw [e, ih]
    simp [pySlice]

/-! ## Filtering -/

/-- The stage that a change of depth stands for; there is none if the depths are the same. -/
def Spec.bridge (d1 d2 : AVal) (D : K) : List (Spec.Stage K) :=
  if d1 = d2 then [] else [.tone (Spec.fullScale (some d1)) (Spec.fullScale (some d2)) D 0 fun _ u => u]

/-- The colours `qs` are `float32` numbers, off from those that the chain makes of `ps` by at most `e`. -/
def Spec.Follows (ss : List (Spec.Stage K)) (e : K) (ps qs : List (Fin 3 → K)) : Prop :=
  List.Forall₂ (fun p q => ∀ i, Spec.IsSingle (q i) ∧ |q i - Spec.evalChain ss p i| ≤ e) ps qs

theorem optRange_convert {E : Evaluator K} (hE : E.rounding = ieee) {d1 d2 : AVal} {D : K} (D1 : 1 ≤ D) (D2 : D ≤ 2 ^ 89) {ts : List (Spec.Stage K)}
    {B e e' : K} (hb : Spec.Budget (Spec.bridge d1 d2 D ++ ts) B e e') {α : Type} (items : List α)
    (u v : α → Fin 3 → K) (hu : ∀ x ∈ items, Small B (u x) ∧ Off e (u x) (v x)) :
    ∃ (w : α → Fin 3 → K) (B1 e1 : K), optRangeR E.rounding (if some d1 ≠ some d2 then some (depthRange (some d1) (some d2)) else none) (Spec.rgb (items.map u))
        = .ok (Spec.rgb (items.map w)) ∧ Spec.Budget ts B1 e1 e' ∧
      ∀ x ∈ items, Small B1 (w x) ∧ Off e1 (w x) (Spec.evalChain (Spec.bridge d1 d2 D) (v x)) := by
  by_cases h : d1 = d2
  · subst h
    simp only [Spec.bridge, if_true, List.nil_append] at hb
    simp only [ne_eq, not_true_eq_false, if_false, Spec.bridge, if_true]
    exact ⟨u, B, e, rfl, hb, hu⟩
  · simp only [Spec.bridge, if_neg h, List.singleton_append] at hb
    have hne : (some d1 : Depth) ≠ some d2 := fun h' => h (Option.some.inj h')
    simp only [if_pos hne, Spec.bridge, if_neg h]
    cases hb with
    | @cons _ _ _ _ l d B' _ hg hbs =>
      have hi := (C147_depths E hE (depthRange (some d1) (some d2)) d1 d2 ⟨rfl, rfl, fun _ _ => rfl, rfl⟩ D D1 D2).1
      obtain ⟨r, w, h1, h2, h3⟩ := runs_stage (runs_node hE 0 hi hg) hg hi.wf items u v hu
      refine ⟨w, B', _, ?_, hbs, h3⟩
      have h1' : rangeProcessR E.rounding (depthRange (some d1) (some d2)) (Spec.rgb (items.map u)) = .ok r := h1
      simp only [optRangeR, h1', py_ok_bind, py_pure, h2]

/-- A row. -/
theorem filterValues_follows {E : Evaluator K} (hE : E.rounding = ieee) {compat : ℕ} {ns : List (Node K)} {ss : List (Spec.Stage K)}
    (h : Carries E compat false none ns ss) {din d1 d2 dout : AVal} {D D' : K} (hD : 1 ≤ D ∧ D ≤ 2 ^ 89) (hD' : 1 ≤ D' ∧ D' ≤ 2 ^ 89) {B e : K}
    (hb : Spec.Budget (Spec.bridge din d1 D ++ (ss ++ Spec.bridge d2 dout D')) B 0 e) (j : Job K) (hn : j.nodes = ns)
    (hi : j.inRange = if some d1 ≠ some din then some (depthRange (some din) (some d1)) else none)
    (ho : j.outRange = if some d2 ≠ some dout then some (depthRange (some d2) (some dout)) else none) (ps : List (Fin 3 → K))
    (hp : ∀ p ∈ ps, ∀ i, Spec.IsSingle (p i) ∧ |p i| ≤ B) :
    ∃ qs, filterValuesR E compat j 3 (Spec.rgb ps) = .ok (Spec.rgb qs) ∧ Spec.Follows (Spec.bridge din d1 D ++ (ss ++ Spec.bridge d2 dout D')) e ps qs := by
  obtain ⟨w1, B1, e1, a1, a2, a3⟩ := optRange_convert hE hD.1 hD.2 hb ps id id fun p hp' => ⟨hp p hp', fun i => by simp⟩
  obtain ⟨r, w2, B2, e2, b1, b2, b3, b4⟩ := runs_carries hE h a2 ps w1 _ a3 (Spec.rgb (ps.map w1)) true
  obtain ⟨w3, B3, e3, c1, c2, c3⟩ := optRange_convert hE hD'.1 hD'.2 (ts := []) (by simpa using b3) ps w2 _ b4
  cases c2
  have hcopy : (Spec.rgb (ps.map w1)).map (E.rounding single) = Spec.rgb (ps.map w1) := by
    rw [hE]
    refine copy_rgb _ fun p hp i => ?_
    obtain ⟨x, hx, rfl⟩ := List.mem_map.mp hp
    exact ((a3 x hx).1 i).1
  refine ⟨ps.map w3, ?_, ?_⟩
  · have hi' : (if some d1 ≠ some din then some (depthRange (K := K) (some din) (some d1)) else none) = if some din ≠ some d1 then some (depthRange (some din) (some d1)) else none := by
      simp only [ne_comm]
    unfold filterValuesR processListR
    rw [List.map_id] at a1
    rw [hi, ho, hn, hi', a1]
    simp only [py_ok_bind, hcopy, b1, py_pure, b2, c1]
  · unfold Spec.Follows
    rw [List.forall₂_map_right_iff, List.forall₂_same]
    intro p hp' i
    rw [evalChain_append, evalChain_append]
    exact ⟨((c3 p hp').1 i).1, (c3 p hp').2 i⟩

theorem follows_flatten {ss : List (Spec.Stage K)} {e : K} : ∀ {h : ℕ} {a b : ℕ → List (Fin 3 → K)}, (∀ r < h, Spec.Follows ss e (a r) (b r)) →
    Spec.Follows ss e ((List.range h).map a).flatten ((List.range h).map b).flatten
  | 0, _, _, _ => .nil
  | h + 1, a, b, hr => by
    have ih := follows_flatten (h := h) fun r hr' => hr r (by omega)
    unfold Spec.Follows at ih ⊢
    rw [List.range_succ, List.map_append, List.map_append, List.flatten_append, List.flatten_append]
    refine List.rel_append ih ?_
    simpa [Spec.Follows] using hr h (by omega)

theorem follows_length {ss : List (Spec.Stage K)} {e : K} {ps qs : List (Fin 3 → K)} (h : Spec.Follows ss e ps qs) : qs.length = ps.length :=
  (List.Forall₂.length_eq h).symm

/-- C149: an RGB image of integers or `float32` numbers of at least two rows, filtered by at least two processes in IEEE arithmetic, whatever order
they work in.  Every written number comes from one that is off from what the list stands for by no more than the budget of the list and the two
changes of depth. -/
theorem C149_image (E : Evaluator K) (hE : E.rounding = ieee) (compat : ℕ) (img : Image K) (ns : List (Node K)) (outBitDepth : Option AVal)
    (workers : ℕ) (hw : 1 < workers) (schedule : List ℕ) (hc : img.channels = 3) (hh : 2 ≤ img.height) (hf : Spec.Finished workers img.height schedule)
    (p : PixelArray K) (hr : readPixelArray (some img) = .ok p) (ps : List (Fin 3 → K)) (hps : Spec.Shows p.data ps) (hl : ps.length = img.width * img.height)
    (d1 d2 : AVal) (h1 : listInDepth ns = some d1) (h2 : listOutDepth ns = some d2) (ss : List (Spec.Stage K)) (hcar : Carries E compat false none ns ss)
    (D D' : K) (hD : 1 ≤ D ∧ D ≤ 2 ^ 89) (hD' : 1 ≤ D' ∧ D' ≤ 2 ^ 89) (B e : K)
    (hb : Spec.Budget (Spec.bridge p.depth d1 D ++ (ss ++ Spec.bridge d2 (filterJob ns p outBitDepth).1 D')) B 0 e)
    (hp : ∀ x ∈ ps, ∀ i, Spec.IsSingle (x i) ∧ |x i| ≤ B) :
    ∃ qs, filterImageR E compat (some img) ns outBitDepth workers schedule = (do
        let out ← writePixelArray (Spec.rgb qs) (filterJob ns p outBitDepth).1 img
        .ok (some out)) ∧
      Spec.Follows (Spec.bridge p.depth d1 D ++ (ss ++ Spec.bridge d2 (filterJob ns p outBitDepth).1 D')) e ps qs := by
  obtain ⟨hi, -⟩ := read_image hr
  obtain ⟨e1, e2, e3, e4⟩ := filterJob_size (ns := ns) (outBitDepth := outBitDepth) hi
  have hi1 : (filterJob ns p outBitDepth).2.inRange = if some d1 ≠ some p.depth then some (depthRange (some p.depth) (some d1)) else none := by
    simp only [filterJob, h1]
  have ho1 : (filterJob ns p outBitDepth).2.outRange = if some d2 ≠ some (filterJob ns p outBitDepth).1 then
      some (depthRange (some d2) (some (filterJob ns p outBitDepth).1)) else none := by
    simp only [filterJob, h2]
  have hn1 : (filterJob ns p outBitDepth).2.nodes = ns := rfl
  generalize hdo : (filterJob ns p outBitDepth).1 = dout at *
  set j := (filterJob ns p outBitDepth).2 with hj
  have row : ∀ r, ∃ qs, filterValuesR E compat j 3 (Spec.rgb (pySlice ps (r * img.width) (r * img.width + img.width))) = .ok (Spec.rgb qs) ∧
      Spec.Follows (Spec.bridge p.depth d1 D ++ (ss ++ Spec.bridge d2 dout D')) e (pySlice ps (r * img.width) (r * img.width + img.width)) qs :=
    fun r => filterValues_follows hE hcar hD hD' hb j hn1 hi1 ho1 _ fun x hx => hp x (List.mem_of_mem_drop (List.mem_of_mem_take hx))
  choose q hq hq' using row
  have slice : ∀ r, j.data.slice E.arith (r * j.width * j.channels) (r * j.width * j.channels + j.width * j.channels)
      = Spec.rgb (pySlice ps (r * img.width) (r * img.width + img.width)) := by
    intro r
    rw [e1, e2, e4, hc]
    exact shows_slice hE hps (fun x hx i => (hp x hx i).1) r img.width
  have tasks : (List.range j.height).map (fun x => j.data.slice E.arith (x * j.width * j.channels) (x * j.width * j.channels + j.width * j.channels))
      = (List.range j.height).map fun r => Spec.rgb (pySlice ps (r * img.width) (r * img.width + img.width)) :=
    List.map_congr_left fun r _ => slice r
  have caught : ∀ r, filterRowCaughtR E compat j (Spec.rgb (pySlice ps (r * img.width) (r * img.width + img.width))) = some (Spec.rgb (q r)) := by
    intro r
    unfold filterRowCaughtR
    rw [progress_ok _ (by rw [e3]; exact hh), py_ok_bind, e4, hc, hq r]
  have full := follows_flatten (h := j.height) fun r _ => hq' r
  rw [row_slices img.width j.height ps (by rw [hl, e3])] at full
  have len : ∀ r < j.height, (Spec.rgb (q r)).length = j.width * j.channels := by
    intro r hr'
    rw [rgb_length, follows_length (hq' r), e2, e4, hc]
    congr 1
    simp only [pySlice, List.length_take, List.length_drop, hl]
    rw [e3] at hr'
    have := Nat.mul_le_mul_left img.width (show r + 1 ≤ img.height by omega)
    rw [Nat.mul_succ, Nat.mul_comm] at this
    omega
  refine ⟨_, ?_, full⟩
  unfold filterImageR
  rw [hr]
  simp only [py_ok_bind, if_pos hw]
  rw [← hj, tasks, (poolMap_finished (filterRowCaughtR E compat j) _ workers schedule).1 (by simpa [e3] using hf), List.map_map]
  rw [show (List.range j.height).map (filterRowCaughtR E compat j ∘ fun r => Spec.rgb (pySlice ps (r * img.width) (r * img.width + img.width)))
    = (List.range j.height).map fun r => some (Spec.rgb (q r)) from List.map_congr_left fun r _ => caught r]
  simp only
  rw [copyRows_some E.arith j (fun r => Spec.rgb (q r)) len]
  have flat : ((List.range j.height).map fun r => Spec.rgb (q r)).flatten = Spec.rgb ((List.range j.height).map q).flatten := by
    rw [← rgb_flatten, List.map_map]
    rfl
  have hcopy : (Spec.rgb ((List.range j.height).map q).flatten).map E.arith.f32 = Spec.rgb ((List.range j.height).map q).flatten := by
    have hf : E.arith.f32 = ieee single := by simp only [Evaluator.arith, hE]
    rw [hf]
    refine copy_rgb _ fun x hx i => ?_
    obtain ⟨k, hk, rfl⟩ := List.mem_iff_getElem.mp hx
    have := List.forall₂_iff_get.mp full
    exact ((this.2 k (by rw [this.1]; exact hk) hk) i).1
  rw [flat, hcopy, hi, hdo]
  rfl

/-! ## Written samples -/

/-- The codes `cs` of `n` bits. -/
def Spec.codes (cs : List (Fin 3 → ℕ)) : List ℕ := (cs.map fun c => [c 0, c 1, c 2]).flatten

/-- A number above -1 loses what is after the point. -/
theorem store_cut {n : ℕ} {d : AVal} (hn : Spec.Width n d) {x v e : K} (he : e < 1) (h0 : 0 ≤ v) (h1 : v ≤ 2 ^ n - 1) (hx : |x - v| ≤ e) :
    ∃ c : ℕ, storeUInt (if n = 8 then 8 else 16) (Spec.lowBits n) (.fin x) = .ok (c * 2 ^ Spec.lowBits n) ∧ c < 2 ^ n ∧ |(c : K) - v| < 1 + e := by
  obtain ⟨x1, x2⟩ := abs_le.mp hx
  obtain ⟨cn, -, -⟩ := width_cases (K := K) hn
  have fits : ∀ c : ℕ, c < 2 ^ n → c * 2 ^ Spec.lowBits n < 2 ^ (if n = 8 then 8 else 16) := by
    intro c hc
    unfold Spec.lowBits
    rcases cn with rfl | rfl | rfl | rfl <;> norm_num at hc ⊢ <;> omega
  have h16 : (if n = 8 then 8 else 16) ≤ 16 := by split <;> norm_num
  rcases lt_or_ge x 0 with hneg | hpos
  · refine ⟨0, ?_, by positivity, ?_⟩
    · have ht : truncInt (.fin x) = .ok 0 := by
        have : ⌊-x⌋ = 0 := Int.floor_eq_zero_iff.mpr ⟨by linarith, by linarith⟩
        simp [truncInt, if_pos hneg, this]
      unfold storeUInt
      rw [ht, py_ok_bind]
      norm_num
    · rw [Nat.cast_zero, abs_lt]
      constructor <;> linarith
  · have hf : 0 ≤ ⌊x⌋ := Int.floor_nonneg.mpr hpos
    have hc : ((⌊x⌋.toNat : ℕ) : K) = (⌊x⌋ : K) := by
      rw [← Int.cast_natCast, Int.toNat_of_nonneg hf]
    have f1 := Int.floor_le x
    have f2 := Int.lt_floor_add_one x
    have hlt : ⌊x⌋.toNat < 2 ^ n := by
      have : ((⌊x⌋.toNat : ℕ) : K) < ((2 ^ n : ℕ) : K) := by
        rw [hc]
        push_cast
        linarith
      exact_mod_cast this
    refine ⟨⌊x⌋.toNat, store_between _ _ _ x (by rw [hc]; exact f1) (by rw [hc]; exact f2) (fits _ hlt) h16, hlt, ?_⟩
    rw [hc, abs_lt]
    constructor <;> linarith

theorem store_colours {n : ℕ} {d : AVal} (hn : Spec.Width n d) {ss : List (Spec.Stage K)} {e : K} (he : e < 1) {ps qs : List (Fin 3 → K)}
    (h : Spec.Follows ss e ps qs) (hv : ∀ p ∈ ps, ∀ i, 0 ≤ Spec.evalChain ss p i ∧ Spec.evalChain ss p i ≤ 2 ^ n - 1) :
    ∃ cs : List (Fin 3 → ℕ), (Spec.rgb qs).mapM (storeUInt (if n = 8 then 8 else 16) (Spec.lowBits n)) = .ok ((Spec.codes cs).map (· * 2 ^ Spec.lowBits n)) ∧
      List.Forall₂ (fun p c => ∀ i, c i < 2 ^ n ∧ |(c i : K) - Spec.evalChain ss p i| < 1 + e) ps cs := by
  induction h with
  | nil => exact ⟨[], rfl, .nil⟩
  | @cons p q ps qs hpq hrest ih =>
    obtain ⟨cs, h1, h2⟩ := ih fun p' hp' => hv p' (by simp [hp'])
    have one : ∀ i, ∃ c : ℕ, storeUInt (if n = 8 then 8 else 16) (Spec.lowBits n) (.fin (q i)) = .ok (c * 2 ^ Spec.lowBits n) ∧ c < 2 ^ n ∧
        |(c : K) - Spec.evalChain ss p i| < 1 + e := fun i =>
      store_cut hn he (hv p (by simp) i).1 (hv p (by simp) i).2 (hpq i).2
    choose c hc hc' using one
    refine ⟨c :: cs, ?_, .cons hc' h2⟩
    have e1 : Spec.rgb (q :: qs) = .fin (q 0) :: .fin (q 1) :: .fin (q 2) :: Spec.rgb qs := rfl
    have e2 : Spec.codes (c :: cs) = c 0 :: c 1 :: c 2 :: Spec.codes cs := rfl
    rw [e1, e2, py_mapM_cons, hc 0, py_ok_bind, py_mapM_cons, hc 1, py_ok_bind, py_mapM_cons, hc 2, py_ok_bind, h1]
    rfl

/-- C149, integers: if the exact values are in range and the budget is less than one code, every written code is less than one code and
the budget away from the exact value. -/
theorem C149_words (E : Evaluator K) (hE : E.rounding = ieee) (compat : ℕ) (img : Image K) (ns : List (Node K)) (outBitDepth : Option AVal)
    (workers : ℕ) (hw : 1 < workers) (schedule : List ℕ) (hc : img.channels = 3) (hh : 2 ≤ img.height) (hf : Spec.Finished workers img.height schedule)
    (p : PixelArray K) (hr : readPixelArray (some img) = .ok p) (ps : List (Fin 3 → K)) (hps : Spec.Shows p.data ps) (hl : ps.length = img.width * img.height)
    (d1 d2 : AVal) (h1 : listInDepth ns = some d1) (h2 : listOutDepth ns = some d2) (ss : List (Spec.Stage K)) (hcar : Carries E compat false none ns ss)
    (D D' : K) (hD : 1 ≤ D ∧ D ≤ 2 ^ 89) (hD' : 1 ≤ D' ∧ D' ≤ 2 ^ 89) (B e : K) (he : e < 1) (n : ℕ) (hn : Spec.Width n (filterJob ns p outBitDepth).1)
    (hb : Spec.Budget (Spec.bridge p.depth d1 D ++ (ss ++ Spec.bridge d2 (filterJob ns p outBitDepth).1 D')) B 0 e)
    (hp : ∀ x ∈ ps, ∀ i, Spec.IsSingle (x i) ∧ |x i| ≤ B)
    (hv : ∀ x ∈ ps, ∀ i, 0 ≤ Spec.evalChain (Spec.bridge p.depth d1 D ++ (ss ++ Spec.bridge d2 (filterJob ns p outBitDepth).1 D')) x i ∧
      Spec.evalChain (Spec.bridge p.depth d1 D ++ (ss ++ Spec.bridge d2 (filterJob ns p outBitDepth).1 D')) x i ≤ 2 ^ n - 1) :
    ∃ cs : List (Fin 3 → ℕ), filterImageR E compat (some img) ns outBitDepth workers schedule
        = .ok (some ⟨Spec.wordType n, img.width, img.height, 3, some n, .ints ((Spec.codes cs).map (· * 2 ^ Spec.lowBits n))⟩) ∧
      List.Forall₂ (fun x c => ∀ i, c i < 2 ^ n ∧
        |(c i : K) - Spec.evalChain (Spec.bridge p.depth d1 D ++ (ss ++ Spec.bridge d2 (filterJob ns p outBitDepth).1 D')) x i| < 1 + e) ps cs := by
  obtain ⟨qs, k1, k2⟩ := C149_image E hE compat img ns outBitDepth workers hw schedule hc hh hf p hr ps hps hl d1 d2 h1 h2 ss hcar D D' hD hD' B e hb hp
  obtain ⟨cs, l1, l2⟩ := store_colours hn he k2 hv
  refine ⟨cs, ?_, l2⟩
  rw [k1, write_words hn, l1, hc]
  rfl

/-- C149, `float32`: the written numbers are off by at most the budget. -/
theorem C149_floats (E : Evaluator K) (hE : E.rounding = ieee) (compat : ℕ) (img : Image K) (ns : List (Node K)) (outBitDepth : Option AVal)
    (workers : ℕ) (hw : 1 < workers) (schedule : List ℕ) (hc : img.channels = 3) (hh : 2 ≤ img.height) (hf : Spec.Finished workers img.height schedule)
    (p : PixelArray K) (hr : readPixelArray (some img) = .ok p) (ps : List (Fin 3 → K)) (hps : Spec.Shows p.data ps) (hl : ps.length = img.width * img.height)
    (d1 d2 : AVal) (h1 : listInDepth ns = some d1) (h2 : listOutDepth ns = some d2) (ss : List (Spec.Stage K)) (hcar : Carries E compat false none ns ss)
    (D D' : K) (hD : 1 ≤ D ∧ D ≤ 2 ^ 89) (hD' : 1 ≤ D' ∧ D' ≤ 2 ^ 89) (B e : K) (hd : (filterJob ns p outBitDepth).1 = .str "32f") (hbits : img.bits = none)
    (hb : Spec.Budget (Spec.bridge p.depth d1 D ++ (ss ++ Spec.bridge d2 (.str "32f") D')) B 0 e)
    (hp : ∀ x ∈ ps, ∀ i, Spec.IsSingle (x i) ∧ |x i| ≤ B) :
    ∃ qs, filterImageR E compat (some img) ns outBitDepth workers schedule = .ok (some ⟨.float, img.width, img.height, 3, none, .floats (Spec.rgb qs)⟩) ∧
      Spec.Follows (Spec.bridge p.depth d1 D ++ (ss ++ Spec.bridge d2 (.str "32f") D')) e ps qs := by
  have k := C149_image E hE compat img ns outBitDepth workers hw schedule hc hh hf p hr ps hps hl d1 d2 h1 h2 ss hcar D D' hD hD' B e
  rw [hd] at k
  obtain ⟨qs, k1, k2⟩ := k hb hp
  refine ⟨qs, ?_, k2⟩
  rw [k1]
  simp [writePixelArray, depthType, hbits, hc, py_pure]

theorem half_fin {x : K} (h : |x| ≤ 65504) : half.round (.fin x) = .fin (half.near x) ∧ |half.near x - x| ≤ |x| / 2 ^ 11 + 1 / 2 ^ 25 := by
  have err : ∀ y : K, |half.near y - y| ≤ |y| / 2 ^ 11 + 1 / 2 ^ 25 := by
    intro y
    have := Fmt.near_error (K := K) half y
    have hb : half.bias = 15 := by decide
    have hm : half.mant = 10 := by decide
    rw [hb, hm] at this
    refine this.trans (le_of_eq ?_)
    norm_num
  refine ⟨Fmt.round_eq half x ?_, err x⟩
  have hb : half.bias = 15 := by decide
  rw [Fmt.magVal_infCode half (by decide), hb]
  have h1 := (abs_le.mp (err |x|)).2
  rw [abs_abs] at h1
  norm_num at h1 ⊢
  linarith

theorem half_colours {ss : List (Spec.Stage K)} {e : K} {ps qs : List (Fin 3 → K)} (h : Spec.Follows ss e ps qs)
    (hv : ∀ p ∈ ps, ∀ i, |Spec.evalChain ss p i| + e ≤ 65504) :
    ∃ hs : List (Fin 3 → K), (Spec.rgb qs).map half.round = Spec.rgb hs ∧
      List.Forall₂ (fun p c => ∀ i, |c i - Spec.evalChain ss p i| ≤ e + ((|Spec.evalChain ss p i| + e) / 2 ^ 11 + 1 / 2 ^ 25)) ps hs := by
  induction h with
  | nil => exact ⟨[], rfl, .nil⟩
  | @cons p q ps qs hpq hrest ih =>
    obtain ⟨hs, h1, h2⟩ := ih fun p' hp' => hv p' (by simp [hp'])
    have size : ∀ i, |q i| ≤ |Spec.evalChain ss p i| + e := by
      intro i
      have := abs_add_le (q i - Spec.evalChain ss p i) (Spec.evalChain ss p i)
      rw [sub_add_cancel] at this
      linarith [(hpq i).2]
    have one : ∀ i, half.round (.fin (q i)) = .fin (half.near (q i)) ∧
        |half.near (q i) - Spec.evalChain ss p i| ≤ e + ((|Spec.evalChain ss p i| + e) / 2 ^ 11 + 1 / 2 ^ 25) := by
      intro i
      obtain ⟨a1, a2⟩ := half_fin ((size i).trans (hv p (by simp) i))
      refine ⟨a1, ?_⟩
      have t := abs_sub_le (half.near (q i)) (q i) (Spec.evalChain ss p i)
      have d : |q i| / 2 ^ 11 ≤ (|Spec.evalChain ss p i| + e) / 2 ^ 11 := div_le_div_of_nonneg_right (size i) (by positivity)
      linarith [(hpq i).2]
    refine ⟨(fun i => half.near (q i)) :: hs, ?_, .cons (fun i => (one i).2) h2⟩
    have e1 : Spec.rgb (q :: qs) = .fin (q 0) :: .fin (q 1) :: .fin (q 2) :: Spec.rgb qs := rfl
    rw [e1, List.map_cons, List.map_cons, List.map_cons, (one 0).1, (one 1).1, (one 2).1, h1]
    rfl

/-- C149, `float16`: one rounding more. -/
theorem C149_halfs (E : Evaluator K) (hE : E.rounding = ieee) (compat : ℕ) (img : Image K) (ns : List (Node K)) (outBitDepth : Option AVal)
    (workers : ℕ) (hw : 1 < workers) (schedule : List ℕ) (hc : img.channels = 3) (hh : 2 ≤ img.height) (hf : Spec.Finished workers img.height schedule)
    (p : PixelArray K) (hr : readPixelArray (some img) = .ok p) (ps : List (Fin 3 → K)) (hps : Spec.Shows p.data ps) (hl : ps.length = img.width * img.height)
    (d1 d2 : AVal) (h1 : listInDepth ns = some d1) (h2 : listOutDepth ns = some d2) (ss : List (Spec.Stage K)) (hcar : Carries E compat false none ns ss)
    (D D' : K) (hD : 1 ≤ D ∧ D ≤ 2 ^ 89) (hD' : 1 ≤ D' ∧ D' ≤ 2 ^ 89) (B e : K) (hd : (filterJob ns p outBitDepth).1 = .str "16f") (hbits : img.bits = none)
    (hb : Spec.Budget (Spec.bridge p.depth d1 D ++ (ss ++ Spec.bridge d2 (.str "16f") D')) B 0 e)
    (hp : ∀ x ∈ ps, ∀ i, Spec.IsSingle (x i) ∧ |x i| ≤ B)
    (hv : ∀ x ∈ ps, ∀ i, |Spec.evalChain (Spec.bridge p.depth d1 D ++ (ss ++ Spec.bridge d2 (.str "16f") D')) x i| + e ≤ 65504) :
    ∃ qs, filterImageR E compat (some img) ns outBitDepth workers schedule = .ok (some ⟨.half, img.width, img.height, 3, none, .floats (Spec.rgb qs)⟩) ∧
      List.Forall₂ (fun x q => ∀ i, |q i - Spec.evalChain (Spec.bridge p.depth d1 D ++ (ss ++ Spec.bridge d2 (.str "16f") D')) x i|
        ≤ e + ((|Spec.evalChain (Spec.bridge p.depth d1 D ++ (ss ++ Spec.bridge d2 (.str "16f") D')) x i| + e) / 2 ^ 11 + 1 / 2 ^ 25)) ps qs := by
  have k := C149_image E hE compat img ns outBitDepth workers hw schedule hc hh hf p hr ps hps hl d1 d2 h1 h2 ss hcar D D' hD hD' B e
  rw [hd] at k
  obtain ⟨qs, k1, k2⟩ := k hb hp
  obtain ⟨hs, l1, l2⟩ := half_colours k2 hv
  refine ⟨hs, ?_, l2⟩
  rw [k1]
  simp [writePixelArray, depthType, hbits, hc, py_pure, l1]

/-! ## Examples -/

/-- The numbers of the codes. -/
def codeColours (cs : List (Fin 3 → ℕ)) : List (Fin 3 → ℝ) := cs.map fun c i => (c i : ℝ)

theorem codes_show (cs : List (Fin 3 → ℕ)) : (Spec.codes cs).map (fun n : ℕ => Flt.fin (n : ℝ)) = Spec.rgb (codeColours cs) := by
  induction cs with
  | nil => rfl
  | cons c cs ih =>
    have e1 : Spec.codes (c :: cs) = c 0 :: c 1 :: c 2 :: Spec.codes cs := rfl
    have e2 : Spec.rgb (codeColours (c :: cs)) = .fin (c 0 : ℝ) :: .fin (c 1 : ℝ) :: .fin (c 2 : ℝ) :: Spec.rgb (codeColours cs) := rfl
    rw [e1, e2, ← ih]
    rfl

/-- Reading ten bits. -/
theorem read_ten (w h : ℕ) (cs : List (Fin 3 → ℕ)) :
    readPixelArray (K := ℝ) (some ⟨.uint16, w, h, 3, some 10, .ints ((Spec.codes cs).map (· * 2 ^ 6))⟩)
      = .ok ⟨.ints (Spec.codes cs), .str "10i", ⟨.uint16, w, h, 3, some 10, .ints ((Spec.codes cs).map (· * 2 ^ 6))⟩⟩ := by
  have hm : ((Spec.codes cs).map (· * 2 ^ 6)).mapM (fun x => shiftRight x 6) = .ok (Spec.codes cs) := by
    rw [py_mapM_map, py_mapM_ok _ (fun x => x)]
    · simp
    · intro x _
      simp [shiftRight, Nat.shiftRight_eq_div_pow]
  simp only [readPixelArray, typeDepth, py_ok_bind, if_true, py_pure]
  rw [if_pos (by norm_num)]
  norm_num at hm ⊢
  rw [hm]
  rfl

/-- Video levels to all levels: a ten bit image of any size of at least two rows, whose codes lie between the black and white of video.  Every
written code is less than 1.01 codes away from `(x - 64) * 1023 / 876`. -/
example (E : Evaluator ℝ) (hE : E.rounding = ieee) (compat w h : ℕ) (workers : ℕ) (hw : 1 < workers) (schedule : List ℕ) (hh : 2 ≤ h)
    (hf : Spec.Finished workers h schedule) (cs : List (Fin 3 → ℕ)) (hl : cs.length = w * h) (hcs : ∀ c ∈ cs, ∀ i, 64 ≤ c i ∧ c i ≤ 940) :
    ∃ cs' : List (Fin 3 → ℕ), filterImageR E compat (some ⟨.uint16, w, h, 3, some 10, .ints ((Spec.codes cs).map (· * 2 ^ 6))⟩) [.leaf .range legalRange] none
        workers schedule = .ok (some ⟨.uint16, w, h, 3, some 10, .ints ((Spec.codes cs').map (· * 2 ^ 6))⟩) ∧
      List.Forall₂ (fun c c' => ∀ i, |(c' i : ℝ) - ((c i : ℝ) - 64) * (1023 / 876)| < 101 / 100) cs cs' := by
  obtain ⟨-, g1⟩ := C147_full E hE legalRange (.str "10i") (.str "10i") 64 940 0 1023 ⟨rfl, rfl, rfl, rfl, rfl, rfl⟩ false
    (.inr ⟨rfl, _, rfl, by decide⟩) 2 1 5 legalRange_spread
  obtain ⟨e1, B1, j1, k1, -⟩ := g1 1023 (by rw [fullScale_ten]; norm_num)
  have he : e1 + 1023 / 876 * 0 ≤ 1 / 100 := by
    rw [fullScale_ten] at k1
    have kk : |((1023 : ℝ) / 1023 - 0 / 1023) / (940 / 1023 - 64 / 1023)| = 1023 / 876 := by norm_num
    rw [kk] at k1
    norm_num at k1 ⊢
    linarith
  have mem : ∀ x ∈ codeColours cs, ∀ i, ∃ n : ℕ, x i = n ∧ 64 ≤ n ∧ n ≤ 940 := by
    intro x hx i
    obtain ⟨c, hc, rfl⟩ := List.mem_map.mp hx
    exact ⟨c i, rfl, hcs c hc i⟩
  have val : ∀ x ∈ codeColours cs, ∀ i, Spec.evalChain (Spec.bridge (.str "10i") (.str "10i") 1 ++ ([legalStage] ++ Spec.bridge (.str "10i") (.str "10i") 1)) x i
      = (x i - 64) * (1023 / 876) := by
    intro x hx i
    obtain ⟨n, e, n1, n2⟩ := mem x hx i
    have n1' : (64 : ℝ) ≤ x i := by rw [e]; exact_mod_cast n1
    have n2' : x i ≤ 940 := by rw [e]; exact_mod_cast n2
    have b1 : -2 ≤ x i / 1023 := by
      rw [le_div_iff₀ (by norm_num)]
      linarith
    have b2 : x i / 1023 ≤ 2 := by
      rw [div_le_iff₀ (by norm_num)]
      linarith
    simp only [Spec.bridge, if_true, List.nil_append, List.append_nil, Spec.evalChain, legalStage, Spec.Stage.eval, fullScale_ten, max_eq_right b1, min_eq_right b2,
      Spec.spread, Spec.affine, Bool.false_eq_true, if_false]
    norm_num
  obtain ⟨cs', h1, h2⟩ := C149_words E hE compat _ [.leaf .range legalRange] none workers hw schedule rfl hh hf _ (read_ten w h cs) (codeColours cs) (codes_show cs)
    (by rw [codeColours, List.length_map, hl]) (.str "10i") (.str "10i") rfl rfl [legalStage] (.node (.inl rfl) (legal_implements E hE).1 .nil) 1 1
    ⟨le_rfl, one_le_pow₀ one_le_two⟩ ⟨le_rfl, one_le_pow₀ one_le_two⟩ 1023 _ (by
      refine lt_of_le_of_lt (b := (1 : ℝ) / 100) ?_ (by norm_num)
      exact he.trans' (le_of_eq (by ring_nf))) 10 (by simp [Spec.Width, filterJob]) (.cons j1 .nil) (by
      intro x hx i
      obtain ⟨n, e, n1, n2⟩ := mem x hx i
      rw [e]
      refine ⟨isSingle_nat (by omega), ?_⟩
      rw [abs_of_nonneg n.cast_nonneg]
      exact_mod_cast (by omega : n ≤ 1023)) (by
      intro x hx i
      obtain ⟨n, e, n1, n2⟩ := mem x hx i
      have n1' : (64 : ℝ) ≤ x i := by rw [e]; exact_mod_cast n1
      have n2' : x i ≤ 940 := by rw [e]; exact_mod_cast n2
      rw [show (filterJob [Node.leaf Kind.range legalRange] (PixelArray.mk (K := ℝ) (.ints (Spec.codes cs)) (.str "10i")
        ⟨.uint16, w, h, 3, some 10, .ints ((Spec.codes cs).map (· * 2 ^ 6))⟩) none).1 = .str "10i" from rfl, val x hx i]
      constructor
      · nlinarith
      · norm_num
        linarith)
  refine ⟨cs', h1, ?_⟩
  rw [codeColours, List.forall₂_map_left_iff] at h2
  obtain ⟨l1, l2⟩ := List.forall₂_iff_get.mp h2
  refine List.forall₂_iff_get.mpr ⟨l1, fun k k1 k2 i => ?_⟩
  have := (l2 k k1 k2 i).2
  rw [show (filterJob [Node.leaf Kind.range legalRange] (PixelArray.mk (K := ℝ) (.ints (Spec.codes cs)) (.str "10i")
    ⟨.uint16, w, h, 3, some 10, .ints ((Spec.codes cs).map (· * 2 ^ 6))⟩) none).1 = .str "10i" from rfl,
    val _ (List.mem_map.mpr ⟨_, List.get_mem _ _, rfl⟩) i] at this
  refine lt_of_lt_of_le this ?_
  have e0 : e1 ≤ 1 / 100 := by simpa using he
  simp only [mul_zero, add_zero]
  linarith

/-- The same levels for numbers from 0 to 1. -/
noncomputable def legalWide : Spec.Stage ℝ :=
  .tone (Spec.fullScale (some (.str "10i"))) (Spec.fullScale (some (.str "10i"))) 4 (7 / 2 ^ 22)
    fun _ => Spec.spread false (Spec.fullScale (some (.str "10i"))) (Spec.fullScale (some (.str "10i"))) 64 940 0 1023

theorem legalWide_spread : Spec.Spread (Spec.fullScale (some (.str "10i"))) (Spec.fullScale (some (.str "10i"))) 64 940 0 1023 4 1 7 := by
  rw [fullScale_ten]
  constructor <;> norm_num [abs_le]

theorem legalWide_implements (E : Evaluator ℝ) (hE : E.rounding = ieee) : Implements E (.leaf .range legalRange) legalWide :=
  (C147_full E hE legalRange (.str "10i") (.str "10i") 64 940 0 1023 ⟨rfl, rfl, rfl, rfl, rfl, rfl⟩ false (.inr ⟨rfl, _, rfl, by decide⟩) 4 1 7 legalWide_spread).1

theorem wide_budget (d : AVal) (h1 : Spec.fullScale (K := ℝ) (some d) = 1) (hd : d ≠ .str "10i") :
    ∃ e, Spec.Budget (Spec.bridge d (.str "10i") (1 + 1 / 2 ^ 20) ++ ([legalWide] ++ Spec.bridge (.str "10i") d 30)) 1 0 e ∧ e ≤ 1 / 10 ^ 4 := by
  obtain ⟨-, -, g1⟩ := C147_depths (K := ℝ) ⟨ieee, fun _ => double, realArith⟩ rfl (depthRange (some d) (some (.str "10i"))) d (.str "10i") ⟨rfl, rfl, fun _ _ => rfl, rfl⟩
    (1 + 1 / 2 ^ 20) (by norm_num) (by norm_num)
  obtain ⟨e1, B1, j1, k1, l1⟩ := g1 1 (by rw [h1]; norm_num)
  obtain ⟨-, g2⟩ := C147_full ⟨ieee, fun _ => double, realArith⟩ rfl legalRange (.str "10i") (.str "10i") 64 940 0 1023 ⟨rfl, rfl, rfl, rfl, rfl, rfl⟩ false
    (.inr ⟨rfl, _, rfl, by decide⟩) 4 1 7 legalWide_spread
  rw [fullScale_ten] at l1 k1
  obtain ⟨e2, B2, j2, k2, l2⟩ := g2 B1 (by
    rw [fullScale_ten]
    norm_num at l1 ⊢
    linarith)
  rw [fullScale_ten] at l2 k2
  obtain ⟨-, -, g3⟩ := C147_depths (K := ℝ) ⟨ieee, fun _ => double, realArith⟩ rfl (depthRange (some (.str "10i")) (some d)) (.str "10i") d ⟨rfl, rfl, fun _ _ => rfl, rfl⟩
    30 (by norm_num) (by norm_num)
  obtain ⟨e3, B3, j3, k3, -⟩ := g3 B2 (by
    rw [fullScale_ten]
    norm_num at l2 ⊢
    linarith)
  rw [h1] at k3
  have u1 : Spec.bridge (K := ℝ) d (.str "10i") (1 + 1 / 2 ^ 20) = [.tone (Spec.fullScale (some d)) (Spec.fullScale (some (.str "10i"))) (1 + 1 / 2 ^ 20) 0 fun _ u => u] := by
    rw [Spec.bridge, if_neg hd]
  have u2 : Spec.bridge (K := ℝ) (.str "10i") d 30 = [.tone (Spec.fullScale (some (.str "10i"))) (Spec.fullScale (some d)) 30 0 fun _ u => u] := by
    rw [Spec.bridge, if_neg fun h => hd h.symm]
  rw [u1, u2]
  refine ⟨_, .cons j1 (.cons j2 (.cons j3 .nil)), ?_⟩
  rw [h1, fullScale_ten]
  have kk : |((1023 : ℝ) / 1023 - 0 / 1023) / (940 / 1023 - 64 / 1023)| = 1023 / 876 := by norm_num
  rw [kk] at k2 ⊢
  norm_num at k1 k2 k3 ⊢
  linarith

theorem wide_value (d : AVal) (h1 : Spec.fullScale (K := ℝ) (some d) = 1) (hd : d ≠ .str "10i") (x : Fin 3 → ℝ) (i : Fin 3) (hx : 0 ≤ x i ∧ x i ≤ 1) :
    Spec.evalChain (Spec.bridge d (.str "10i") (1 + 1 / 2 ^ 20) ++ ([legalWide] ++ Spec.bridge (.str "10i") d 30)) x i = (x i * 1023 - 64) / 876 := by
  have u1 : Spec.bridge (K := ℝ) d (.str "10i") (1 + 1 / 2 ^ 20) = [.tone (Spec.fullScale (some d)) (Spec.fullScale (some (.str "10i"))) (1 + 1 / 2 ^ 20) 0 fun _ u => u] := by
    rw [Spec.bridge, if_neg hd]
  have u2 : Spec.bridge (K := ℝ) (.str "10i") d 30 = [.tone (Spec.fullScale (some (.str "10i"))) (Spec.fullScale (some d)) 30 0 fun _ u => u] := by
    rw [Spec.bridge, if_neg fun h => hd h.symm]
  have m1 : min (1 + 1 / 2 ^ 20) (max (-(1 + 1 / 2 ^ 20)) (x i)) = x i := by
    rw [max_eq_right (by linarith), min_eq_right (by linarith)]
  have m2 : min 4 (max (-4) (x i)) = x i := by
    rw [max_eq_right (by linarith), min_eq_right (by linarith)]
  have m3 : min 30 (max (-30) ((x i * 1023 - 64) / 876)) = (x i * 1023 - 64) / 876 := by
    rw [max_eq_right (by linarith), min_eq_right (by linarith)]
  rw [u1, u2]
  simp only [List.cons_append, List.nil_append, Spec.evalChain, Spec.Stage.eval, legalWide, h1, fullScale_ten, div_one, m1, Spec.spread,
    Spec.affine, Bool.false_eq_true, if_false]
  have c1 : x i * 1023 / 1023 = x i := by ring
  rw [c1, m2]
  have e : ((0 : ℝ) + (x i * 1023 - 64) * ((1023 - 0) / (940 - 64))) / 1023 = (x i * 1023 - 64) / 876 := by ring
  have c2 : (x i * 1023 - 64) / 876 * 1023 / 1023 = (x i * 1023 - 64) / 876 := by ring
  rw [e, c2, m3, mul_one]

/-- Images of floats and halfs of any size, with numbers from 0 to 1. -/
example (E : Evaluator ℝ) (hE : E.rounding = ieee) (compat w h : ℕ) (workers : ℕ) (hw : 1 < workers) (schedule : List ℕ) (hh : 2 ≤ h)
    (hf : Spec.Finished workers h schedule) (ps : List (Fin 3 → ℝ)) (hl : ps.length = w * h) (hp : ∀ p ∈ ps, ∀ i, Spec.IsSingle (p i) ∧ 0 ≤ p i ∧ p i ≤ 1) :
    (∃ qs, filterImageR E compat (some ⟨.float, w, h, 3, none, .floats (Spec.rgb ps)⟩) [.leaf .range legalRange] none workers schedule
        = .ok (some ⟨.float, w, h, 3, none, .floats (Spec.rgb qs)⟩) ∧
      List.Forall₂ (fun p q => ∀ i, |q i - (p i * 1023 - 64) / 876| ≤ 1 / 10 ^ 4) ps qs) ∧
    ∃ qs, filterImageR E compat (some ⟨.half, w, h, 3, none, .floats (Spec.rgb ps)⟩) [.leaf .range legalRange] none workers schedule
        = .ok (some ⟨.half, w, h, 3, none, .floats (Spec.rgb qs)⟩) ∧
      List.Forall₂ (fun p q => ∀ i, |q i - (p i * 1023 - 64) / 876| ≤ 1 / 10 ^ 3) ps qs := by
  have hD : (1 : ℝ) ≤ 1 + 1 / 2 ^ 20 ∧ (1 : ℝ) + 1 / 2 ^ 20 ≤ 2 ^ 89 := by norm_num
  have hD' : (1 : ℝ) ≤ 30 ∧ (30 : ℝ) ≤ 2 ^ 89 := by norm_num
  have hp1 : ∀ p ∈ ps, ∀ i, Spec.IsSingle (p i) ∧ |p i| ≤ 1 := fun p hp' i =>
    ⟨(hp p hp' i).1, abs_le.mpr ⟨by linarith [(hp p hp' i).2.1], (hp p hp' i).2.2⟩⟩
  have size : ∀ p ∈ ps, ∀ i, |(p i * 1023 - 64) / 876| ≤ 11 / 10 := fun p hp' i => by
    obtain ⟨-, a, b⟩ := hp p hp' i
    rw [abs_le]
    constructor <;> linarith
  constructor
  · obtain ⟨e, hb, he⟩ := wide_budget (.str "32f") rfl (by decide)
    obtain ⟨qs, k1, k2⟩ := C149_floats E hE compat ⟨.float, w, h, 3, none, .floats (Spec.rgb ps)⟩ [.leaf .range legalRange] none workers hw schedule rfl hh hf
      ⟨.floats (Spec.rgb ps), .str "32f", ⟨.float, w, h, 3, none, .floats (Spec.rgb ps)⟩⟩ rfl ps rfl hl (.str "10i") (.str "10i") rfl rfl [legalWide]
      (.node (.inl rfl) (legalWide_implements E hE) .nil) _ _ hD hD' 1 e rfl rfl hb hp1
    refine ⟨qs, k1, ?_⟩
    obtain ⟨l1, l2⟩ := List.forall₂_iff_get.mp k2
    refine List.forall₂_iff_get.mpr ⟨l1, fun k k1 k2 i => ?_⟩
    have := (l2 k k1 k2 i).2
    rw [wide_value (.str "32f") rfl (by decide) _ i (hp _ (List.get_mem _ _) i).2] at this
    exact this.trans he
  · obtain ⟨e, hb, he⟩ := wide_budget (.str "16f") rfl (by decide)
    obtain ⟨qs, k1, k2⟩ := C149_halfs E hE compat ⟨.half, w, h, 3, none, .floats (Spec.rgb ps)⟩ [.leaf .range legalRange] none workers hw schedule rfl hh hf
      ⟨.floats (Spec.rgb ps), .str "16f", ⟨.half, w, h, 3, none, .floats (Spec.rgb ps)⟩⟩ rfl ps rfl hl (.str "10i") (.str "10i") rfl rfl [legalWide]
      (.node (.inl rfl) (legalWide_implements E hE) .nil) _ _ hD hD' 1 e rfl rfl hb hp1 (fun p hp' i => by
        rw [wide_value (.str "16f") rfl (by decide) _ i (hp p hp' i).2]
        have := size p hp' i
        norm_num at he
        linarith)
    refine ⟨qs, k1, ?_⟩
    obtain ⟨l1, l2⟩ := List.forall₂_iff_get.mp k2
    refine List.forall₂_iff_get.mpr ⟨l1, fun k k1 k2 i => ?_⟩
    have := l2 k k1 k2 i
    rw [wide_value (.str "16f") rfl (by decide) _ i (hp _ (List.get_mem _ _) i).2] at this
    refine this.trans ?_
    have := size _ (List.get_mem ps ⟨k, k1⟩) i
    generalize |(ps.get ⟨k, k1⟩ i * 1023 - 64) / 876| = z at *
    norm_num at he ⊢
    linarith

end CLF
