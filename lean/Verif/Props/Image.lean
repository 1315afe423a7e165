import Verif.Lemmas.Image

set_option linter.unusedSectionVars false

/-!
# Image filtering
-/

namespace CLF

variable {K : Type} [Field K] [LinearOrder K] [IsStrictOrderedRing K] [FloorRing K]

/-! ## Rows -/

/-- The number of values. -/
def Samples.length : Samples K → ℕ
  | .ints l => l.length
  | .floats l => l.length

/-- The values of row `r`. -/
def Job.row (A : Arith K) (j : Job K) (r : ℕ) : List (Flt K) :=
  j.data.slice A (r * j.width * j.channels) (r * j.width * j.channels + j.width * j.channels)

theorem slice_length (A : Arith K) (s : Samples K) (a b : ℕ) (h : a + b ≤ s.length) :
    (s.slice A a (a + b)).length = b := by
  cases s <;> simp [Samples.slice, pySlice, Samples.length] at h ⊢ <;> omega

theorem row_length (A : Arith K) (j : Job K) (h : j.data.length = j.width * j.height * j.channels) (r : ℕ)
    (hr : r < j.height) : (j.row A r).length = j.width * j.channels := by
  unfold Job.row
  refine slice_length A j.data _ _ ?_
  rw [h]
  have : (r + 1) * (j.width * j.channels) ≤ j.height * (j.width * j.channels) := Nat.mul_le_mul_right _ hr
  calc r * j.width * j.channels + j.width * j.channels = (r + 1) * (j.width * j.channels) := by ring
    _ ≤ _ := this
    _ = _ := by ring

theorem progress_ok (h : ℕ) (hh : 2 ≤ h) : progress h = .ok () := by
  unfold progress
  rw [if_neg (by omega)]

theorem progress_small (h : ℕ) (hh : h < 2) : progress h = .error .zeroDivision := by
  unfold progress
  rw [if_pos (by omega)]

theorem optRange_length (A : Arith K) (r : Option (Base K)) (v w : List (Flt K)) (h : optRange A r v = .ok w) :
    w.length = v.length := by
  cases r with
  | none => cases h; rfl
  | some b =>
    rcases range_shape A b with ⟨e, he⟩ | ⟨f, hf, _⟩
    · simp only [optRange, he, py_error_bind] at h; cases h
    · simp only [optRange, hf] at h
      cases e : v.mapM f with
      | error e' => rw [e] at h; cases h
      | ok o =>
        rw [e] at h
        cases h
        exact py_mapM_length e

theorem filterValues_length (A : Arith K) (compat : ℕ) (j : Job K) (stride : ℕ) (v w : List (Flt K))
    (h : filterValues A compat j stride v = .ok w) : w.length = v.length := by
  unfold filterValues at h
  obtain ⟨a, ha, h⟩ := py_bind_eq_ok.mp h
  obtain ⟨b, hb, h⟩ := py_bind_eq_ok.mp h
  rw [optRange_length A _ _ _ h, C44_length A compat stride _ _ _ hb, optRange_length A _ _ _ ha]

/-- The filtered rows of the image, one after another. -/
def Spec.filteredRows (A : Arith K) (compat : ℕ) (j : Job K) : Py (List (List (Flt K))) :=
  (List.range j.height).mapM fun r => filterValues A compat j j.channels (j.row A r)

/-- The rows one after another, each through `filterRow_stride`. -/
theorem sequential_eq (A : Arith K) (compat : ℕ) (j : Job K)
    (h : j.data.length = j.width * j.height * j.channels) (hh : 2 ≤ j.height) :
    (List.range j.height).foldlM (fun out r => filterRowStride A compat j r out)
        (List.replicate (j.width * j.height * j.channels) (Flt.fin (0 : K)))
      = (do
        let rows ← Spec.filteredRows A compat j
        .ok (rows.flatten.map A.f32)) := by
  have := copyAll_eq A (fun r => filterValues A compat j j.channels (j.row A r)) (j.width * j.channels) []
    j.height 0 (fun i _ hi v hv => by
      rw [filterValues_length A compat j _ _ _ hv, row_length A j h i (by omega)])
    [] (List.replicate (j.width * j.height * j.channels) (Flt.fin (0 : K))) (by simp) (by simp; ring)
  simp only [List.nil_append, List.append_nil, ← List.range_eq_range'] at this
  rw [Spec.filteredRows, ← this]
  congr 1
  funext out r
  unfold filterRowStride
  rw [progress_ok _ hh]
  simp only [py_ok_bind, Nat.mul_assoc, Job.row]

/-- The copied results of the pool. -/
theorem copyRows_eq (A : Arith K) (compat : ℕ) (j : Job K)
    (h : j.data.length = j.width * j.height * j.channels) (hm : 0 < j.width * j.channels) (hh : 2 ≤ j.height) :
    copyRows A j ((List.range j.height).map fun x => filterRowCaught A compat j (j.row A x))
        (List.replicate (j.width * j.height * j.channels) (Flt.fin (0 : K)))
      = match Spec.filteredRows A compat j with
        | .ok rows => .ok (rows.flatten.map A.f32)
        | .error _ => .error .typeError := by
  let g : ℕ → Py (List (Flt K)) := fun r =>
    match filterValues A compat j j.channels (j.row A r) with
    | .ok v => .ok v
    | .error _ => .error .typeError
  have hg : ∀ r v, g r = .ok v → filterValues A compat j j.channels (j.row A r) = .ok v := by
    intro r v e
    simp only [g] at e
    split at e
    · rename_i e'; rw [e']; exact e
    · cases e
  have hall := copyAll_eq A g (j.width * j.channels) []
    j.height 0 (fun i _ hi v hv => by
      rw [filterValues_length A compat j _ _ _ (hg i v hv), row_length A j h i (by omega)])
    [] (List.replicate (j.width * j.height * j.channels) (Flt.fin (0 : K))) (by simp) (by simp; ring)
  simp only [List.nil_append, List.append_nil, ← List.range_eq_range'] at hall
  have hm' : ∀ l : List ℕ, l.mapM g = match l.mapM fun r => filterValues A compat j j.channels (j.row A r) with
      | .ok rows => .ok rows
      | .error _ => .error .typeError := by
    intro l
    induction l with
    | nil => rfl
    | cons r l ih =>
      rw [py_mapM_cons, py_mapM_cons, ih]
      simp only [g]
      cases filterValues A compat j j.channels (j.row A r) with
      | error e => rfl
      | ok v =>
        simp only [py_ok_bind]
        cases l.mapM fun r => filterValues A compat j j.channels (j.row A r) <;> rfl
  rw [hm'] at hall
  rw [show copyRows A j ((List.range j.height).map fun x => filterRowCaught A compat j (j.row A x))
        (List.replicate (j.width * j.height * j.channels) (Flt.fin (0 : K)))
      = (List.range j.height).foldlM (fun out i => do
        let v ← g i
        copyInto A out (i * (j.width * j.channels)) (j.width * j.channels) v)
        (List.replicate (j.width * j.height * j.channels) (Flt.fin (0 : K))) from ?_, hall]
  · unfold Spec.filteredRows
    cases (List.range j.height).mapM fun r => filterValues A compat j j.channels (j.row A r) <;> rfl
  · unfold copyRows
    refine foldlM_congr' _ (fun out i hi => ?_) _
    rw [List.mem_range] at hi
    simp only [pyGet, List.getElem?_map, List.getElem?_range hi, Option.map_some, py_ok_bind]
    simp only [g, filterRowCaught, filterRowParallel, progress_ok _ hh, py_ok_bind]
    cases filterValues A compat j j.channels (j.row A i) with
    | error e =>
      simp only [py_error_bind]
      obtain ⟨m, hm⟩ := Nat.exists_eq_add_of_lt hm
      rw [hm, Nat.zero_add, List.range_succ_eq_map, List.foldlM_cons]
      rfl
    | ok v => simp only [py_ok_bind, copyInto, Nat.mul_assoc, pyGet]

/-- Images of less than two rows: the rows cannot be filtered. -/
theorem low_rows (A : Arith K) (compat : ℕ) (j : Job K) (hm : 0 < j.width * j.channels) (hh : j.height = 1)
    (out : List (Flt K)) :
    (List.range j.height).foldlM (fun out r => filterRowStride A compat j r out) out = .error .zeroDivision ∧
    copyRows A j ((List.range j.height).map fun x => filterRowCaught A compat j (j.row A x)) out
      = .error .typeError := by
  have hp : progress j.height = .error .zeroDivision := progress_small _ (by omega)
  constructor
  · rw [hh, List.range_one, List.foldlM_cons]
    unfold filterRowStride
    rw [hp]
    rfl
  · unfold copyRows
    have hc : ∀ x, filterRowCaught A compat j x = none := by
      intro x
      unfold filterRowCaught filterRowParallel
      rw [hp]
      rfl
    simp only [hc]
    obtain ⟨m, hm⟩ := Nat.exists_eq_add_of_lt hm
    rw [hh, List.range_one, List.foldlM_cons, hm, Nat.zero_add, List.range_succ_eq_map, List.foldlM_cons]
    rfl

/-! ## C65: workers -/

/-- Filtering the rows of an image one after another, each with `filterRow_stride`; if a row
raises, nothing is written. -/
def Spec.filterSequential (A : Arith K) (compat : ℕ) (img : Image K) (ns : List (Node K))
    (outBitDepth : Option AVal) : Py (Option (Image K)) := do
  let p ← readPixelArray (some img)
  let (outD, j) := filterJob ns p outBitDepth
  match (List.range j.height).foldlM (fun out r => filterRowStride A compat j r out)
      (List.replicate (j.width * j.height * j.channels) (Flt.fin (0 : K))) with
  | .error _ => pure none
  | .ok pixels => do
    let out ← writePixelArray pixels outD img
    pure (some out)

/-- After the steps of the schedule, the workers have finished `n` tasks. -/
def Spec.Finished (workers n : ℕ) (schedule : List ℕ) : Prop :=
  (schedule.foldl (Pool.step fun _ => none) (Pool.start Unit workers (List.replicate n ()))).done = true

/-- The image has as many values as its size says. -/
def Spec.Sized (img : Image K) : Prop := img.data.length = img.width * img.height * img.channels

theorem read_image {img : Image K} {p : PixelArray K} (h : readPixelArray (some img) = .ok p) :
    p.image = img ∧ p.data.length = img.data.length := by
  unfold readPixelArray at h
  obtain ⟨d, _, h⟩ := py_bind_eq_ok.mp h
  split at h
  · rename_i n l hb ht hd
    simp only at h
    split at h
    · obtain ⟨l', hl, h⟩ := py_bind_eq_ok.mp h
      cases h
      exact ⟨rfl, by rw [hd]; exact py_mapM_length hl⟩
    · cases h
      exact ⟨rfl, by rw [hd]⟩
  · cases h
    exact ⟨rfl, rfl⟩

theorem poolMap_finished {α β : Type} (f : α → Option β) (tasks : List α) (workers : ℕ) (schedule : List ℕ) :
    (Spec.Finished workers tasks.length schedule → poolMap f tasks workers schedule = some (tasks.map f)) ∧
    (¬ Spec.Finished workers tasks.length schedule → poolMap f tasks workers schedule = none) := by
  unfold Spec.Finished
  rw [← pool_shape_start β, ← pool_shape_run f, pool_shape_done]
  constructor
  · intro h
    unfold poolMap
    simp only [if_pos h]
    rw [pool_done f tasks _ (poolInv_run f tasks schedule _ (poolInv_start f workers tasks)) h]
  · intro h
    unfold poolMap
    simp only [if_neg h]

/-- C65: with worker processes the same image is written as row by row, whatever the number
of workers and the order in which they work, as soon as they have finished. -/
theorem C65_parallel (A : Arith K) (compat : ℕ) (img : Image K) (ns : List (Node K)) (outBitDepth : Option AVal)
    (workers : ℕ) (hw : 1 < workers) (schedule : List ℕ) (hs : Spec.Sized img) (hm : 0 < img.width * img.channels)
    (hf : Spec.Finished workers img.height schedule) :
    filterImage A compat (some img) ns outBitDepth workers schedule
      = Spec.filterSequential A compat img ns outBitDepth := by
  unfold filterImage Spec.filterSequential
  cases hr : readPixelArray (some img) with
  | error e => rfl
  | ok p =>
    obtain ⟨hi, hl⟩ := read_image hr
    simp only [py_ok_bind, if_pos hw]
    set j := (filterJob ns p outBitDepth).2 with hj
    have e1 : j.data = p.data := rfl
    have e2 : j.width = img.width := by rw [hj]; simp only [filterJob, hi]
    have e3 : j.height = img.height := by rw [hj]; simp only [filterJob, hi]
    have e4 : j.channels = img.channels := by rw [hj]; simp only [filterJob, hi]
    have hd : j.data.length = j.width * j.height * j.channels := by rw [e1, e2, e3, e4, hl, hs]
    have ht := (poolMap_finished (filterRowCaught A compat j) ((List.range j.height).map fun x =>
      j.data.slice A (x * j.width * j.channels) (x * j.width * j.channels + j.width * j.channels))
      workers schedule).1 (by simpa [e3] using hf)
    rw [ht]
    simp only [List.map_map]
    change (match copyRows A j (List.map (fun x => filterRowCaught A compat j (j.row A x)) (List.range j.height))
        (List.replicate (j.width * j.height * j.channels) (Flt.fin (0 : K))) with
      | .error _ => pure none
      | .ok pixels => do
        let out ← writePixelArray pixels (filterJob ns p outBitDepth).1 p.image
        pure (some out)) = _
    by_cases hh : 2 ≤ j.height
    · rw [copyRows_eq A compat j hd (by rw [e2, e4]; exact hm) hh, sequential_eq A compat j hd hh]
      cases Spec.filteredRows A compat j with
      | error e => rfl
      | ok rows => rw [hi]; rfl
    · rcases Nat.eq_zero_or_pos j.height with h0 | h0
      · unfold copyRows; rw [h0, hi]; rfl
      · obtain ⟨h1, h2⟩ := low_rows A compat j (by rw [e2, e4]; exact hm) (by omega)
          (List.replicate (j.width * j.height * j.channels) (Flt.fin (0 : K)))
        rw [h1, h2]

/-- If the workers have not finished in time, nothing is written. -/
theorem C65_unfinished (A : Arith K) (compat : ℕ) (img : Image K) (ns : List (Node K)) (outBitDepth : Option AVal)
    (workers : ℕ) (hw : 1 < workers) (schedule : List ℕ)
    (hf : ¬ Spec.Finished workers img.height schedule) (out : Image K) :
    filterImage A compat (some img) ns outBitDepth workers schedule ≠ .ok (some out) := by
  unfold filterImage
  cases hr : readPixelArray (some img) with
  | error e => exact fun h => nomatch h
  | ok p =>
    obtain ⟨hi, hl⟩ := read_image hr
    simp only [py_ok_bind, if_pos hw]
    set j := (filterJob ns p outBitDepth).2 with hj
    have e3 : j.height = img.height := by rw [hj]; simp only [filterJob, hi]
    have ht := (poolMap_finished (filterRowCaught A compat j) ((List.range j.height).map fun x =>
      j.data.slice A (x * j.width * j.channels) (x * j.width * j.channels + j.width * j.channels))
      workers schedule).2 (by simpa [e3] using hf)
    rw [ht]
    exact fun h => nomatch h

/-- C65: the workers finish.  If every worker gets a turn in each of `2 * n` rounds, in any
order and any number of times, all `n` rows are done. -/
theorem C65_finishes (workers n : ℕ) (hw : 0 < workers) (rounds : List (List ℕ))
    (hr : ∀ r ∈ rounds, ∀ w < workers, w ∈ r) (hn : 2 * n ≤ rounds.length) :
    Spec.Finished workers n rounds.flatten := by
  refine pool_rounds _ rounds workers hw hr _ (by simp [Pool.start]) ?_
  rw [pool_start_left]
  simpa using hn

/-- Two workers, one row, in changing order. -/
example : ∃ rounds : List (List ℕ), (∀ r ∈ rounds, ∀ w < 2, w ∈ r) ∧ 2 * 1 ≤ rounds.length :=
  ⟨[[0, 1], [1, 0, 1]], by decide, by decide⟩

/-! ### One pixel at a time -/

mutual

theorem node_zero (A : Arith K) (compat : ℕ) : ∀ (n : Node K) (v : List (Flt K)),
    n.process A compat 0 v = n.process A compat v.length v
  | .leaf k b, v => by
    simp only [Node.process]
    exact leaf_zero A compat k b v
  | .group b cs, v => by
    simp only [Node.process]
    exact nodes_zero A compat cs true none ⟨v, v, true⟩
  | .ref b w ns, v => by
    simp only [Node.process]
    rw [nodes_zero A compat ns false none ⟨v.map A.f32, v.map A.f32, true⟩]
    simp
  | .refMissing b w, v => by simp only [Node.process]

theorem nodes_zero (A : Arith K) (compat : ℕ) : ∀ (ns : List (Node K)) (g : Bool) (prev : Option Depth)
    (s : Res K), runNodes A compat 0 g prev ns s = runNodes A compat s.out.length g prev ns s
  | [], g, prev, s => by simp only [runNodes]
  | n :: rest, g, prev, s => by
    rw [runNodes_cons, runNodes_cons]
    split
    · rw [node_zero A compat n s.out]
      cases h : n.process A compat s.out.length s.out with
      | error e => rfl
      | ok r =>
        simp only [py_ok_bind, py_pure]
        rw [nodes_zero A compat rest g _ (s.step r)]
        simp only [Res.step]
        rw [C44_node A compat _ n _ r h]
    · split
      · split
        · rename_i inD next rest _
          cases h : rangeProcess A (adapterBase inD next.inDepth) s.out with
          | error e => rfl
          | ok r =>
            simp only [py_ok_bind, py_pure]
            rw [nodes_zero A compat _ g _ (s.step r)]
            simp only [Res.step]
            rw [adapter_length A inD next.inDepth s.out r.out (by simp only [h]; rfl)]
        · simp only [py_ok_bind, py_pure]
          rw [nodes_zero A compat _ g _ s]
      · simp only [py_ok_bind, py_pure]
        rw [nodes_zero A compat rest g _ s]

end

theorem processList_stride_zero (A : Arith K) (compat : ℕ) (ns : List (Node K)) (v : List (Flt K)) :
    processList A compat ns v 0 = processList A compat ns v v.length := by
  unfold processList
  simp only
  rw [nodes_zero]
  simp

theorem filterValues_zero (A : Arith K) (compat : ℕ) (j : Job K) (v : List (Flt K)) :
    filterValues A compat j 0 v = filterValues A compat j v.length v := by
  unfold filterValues
  cases h : optRange A j.inRange v with
  | error e => rfl
  | ok w =>
    simp only [py_ok_bind]
    rw [processList_stride_zero, optRange_length A _ _ _ h]

/-- The nodes of a list, at any depth, that process pixels of `s` channels independently. -/
def Spec.Independent (s : ℕ) (ns : List (Node K)) : Prop :=
  ∀ n ∈ ns, ∀ m, Within m n → ∀ k b, m = .leaf k b → EcSmall s k

theorem filterValues_pixelwise (A : Arith K) (compat : ℕ) (j : Job K) (hs : 0 < j.channels)
    (hec : Spec.Independent j.channels j.nodes) :
    Pixelwise j.channels (fun _ _ => True) (filterValues A compat j j.channels) := by
  have hcl := closed_pixelwise A j.channels (fun _ _ => True) (fun _ => trivial)
      (fun _ _ _ _ _ => trivial) (fun _ => trivial)
  have hr : ∀ r, Pixelwise j.channels (fun _ _ => True) (optRange A r) := by
    intro r
    cases r with
    | none => exact hcl.ident
    | some b => exact range_pixelwise A j.channels _ (fun _ _ _ => trivial) b
  have hp : Pixelwise j.channels (fun _ _ => True) (fun v => processList A compat j.nodes v j.channels) :=
    processList_closed hcl compat j.channels (fun k _ => EcSmall j.channels k)
      (fun k b h => leaf_pixelwise A compat j.channels hs k b h) False
      (.inr fun d1 d2 => range_pixelwise A j.channels _ (fun _ _ _ => trivial) (adapterBase d1 d2)) j.nodes
      (fun n hn m hm => ⟨fun h => h.elim, fun k b h => hec n hn m hm k b h⟩)
  exact hcl.comp _ _ (hr j.inRange) (hcl.comp _ _ hp (hr j.outRange))

/-- Slices of slices. -/
theorem slice_chunks (A : Arith K) (s : Samples K) (c : ℕ) : ∀ (n k : ℕ),
    ((List.range' k n).map fun i => s.slice A (i * c) (i * c + c)).flatten
      = s.slice A (k * c) (k * c + n * c) := by
  intro n
  induction n with
  | zero =>
    intro k
    cases s <;> simp [Samples.slice, pySlice]
  | succ n ih =>
    intro k
    rw [List.range'_succ, List.map_cons, List.flatten_cons, ih (k + 1)]
    have e1 : (k + 1) * c = k * c + c := by ring
    have e2 : (n + 1) * c = c + n * c := by ring
    rw [e1, e2]
    cases s <;> simp only [Samples.slice, pySlice, ← List.map_append, Nat.add_sub_cancel_left] <;>
      rw [List.take_add, List.drop_drop]

/-- A row filtered one pixel at a time is the row filtered at once. -/
theorem row_pixels (A : Arith K) (compat : ℕ) (j : Job K) (hc : 0 < j.channels)
    (hec : Spec.Independent j.channels j.nodes) (k n : ℕ) (hn : 0 < n) (hk : (k + n) * j.channels ≤ j.data.length) (v : List (Flt K)) :
    filterValues A compat j j.channels (j.data.slice A (k * j.channels) (k * j.channels + n * j.channels)) = .ok v ↔
      ∃ vs, (List.range' k n).mapM (fun i => filterValues A compat j 0
        (j.data.slice A (i * j.channels) (i * j.channels + j.channels))) = .ok vs ∧ v = vs.flatten := by
  have hlen : ∀ i, i < k + n → (j.data.slice A (i * j.channels) (i * j.channels + j.channels)).length
      = j.channels := by
    intro i hi
    refine slice_length A j.data _ _ ?_
    have := Nat.mul_le_mul_right j.channels (show i + 1 ≤ k + n by omega)
    have e : (i + 1) * j.channels = i * j.channels + j.channels := by ring
    omega
  rw [← slice_chunks A j.data j.channels n k]
  rw [(filterValues_pixelwise A compat j hc hec).split _ (by simp; omega) (by
    intro c hcm
    obtain ⟨i, hi, rfl⟩ := List.mem_map.mp hcm
    rw [List.mem_range'_1] at hi
    exact hlen i hi.2)]
  refine exists_congr fun vs => and_congr_left fun _ => ?_
  rw [List.forall₂_map_left_iff, ← py_mapM_eq_ok]
  have e := py_mapM_congr (f := fun i => filterValues A compat j 0
      (j.data.slice A (i * j.channels) (i * j.channels + j.channels)))
    (g := fun i => filterValues A compat j j.channels
      (j.data.slice A (i * j.channels) (i * j.channels + j.channels))) (l := List.range' k n) (by
    intro i hi
    rw [List.mem_range'_1] at hi
    rw [filterValues_zero, hlen i hi.2])
  rw [e]
/-- The rows of an image filtered one after another are the image filtered at once. -/
theorem C65_whole (A : Arith K) (compat : ℕ) (j : Job K) (hc : 0 < j.channels) (hw : 0 < j.width)
    (hh : 0 < j.height) (hec : Spec.Independent j.channels j.nodes)
    (hd : j.data.length = j.width * j.height * j.channels) (v : List (Flt K)) :
    filterValues A compat j j.channels (j.data.slice A 0 (j.width * j.height * j.channels)) = .ok v ↔
      ∃ rows, Spec.filteredRows A compat j = .ok rows ∧ v = rows.flatten := by
  have e0 : j.data.slice A 0 (j.width * j.height * j.channels)
      = j.data.slice A (0 * j.channels) (0 * j.channels + (j.height * j.width) * j.channels) := by
    simp [Nat.mul_comm]
  rw [e0, row_pixels A compat j hc hec 0 (j.height * j.width) (Nat.mul_pos hh hw) (by
    rw [hd, Nat.zero_add, Nat.mul_comm j.height])]
  unfold Spec.filteredRows
  have e1 : ∀ n k, List.range' (k * j.width) (n * j.width)
      = ((List.range' k n).map fun r => List.range' (r * j.width) j.width).flatten := by
    intro n
    induction n with
    | zero => intro k; simp
    | succ n ih =>
      intro k
      rw [List.range'_succ, List.map_cons, List.flatten_cons, ← ih (k + 1)]
      have a1 : (n + 1) * j.width = j.width + n * j.width := by ring
      have a2 : (k + 1) * j.width = k * j.width + j.width := by ring
      rw [a1, a2, ← List.range'_append_1]
  have := e1 j.height 0
  rw [Nat.zero_mul] at this
  rw [this, List.range_eq_range']
  clear this e0
  have hb : ∀ r ∈ List.range' 0 j.height, r < j.height := by
    intro r hr
    rw [List.mem_range'_1] at hr
    omega
  generalize List.range' 0 j.height = rs at hb ⊢
  induction rs generalizing v with
  | nil => simp
  | cons r rs ih =>
    rw [List.map_cons, List.flatten_cons, py_mapM_append]
    rw [py_mapM_cons]
    have hr := row_pixels A compat j hc hec (r * j.width) j.width hw (by
      rw [hd]
      have := Nat.mul_le_mul_right (j.width * j.channels) (show r + 1 ≤ j.height from hb r List.mem_cons_self)
      calc (r * j.width + j.width) * j.channels = (r + 1) * (j.width * j.channels) := by ring
        _ ≤ _ := this
        _ = _ := by ring)
    have ih := fun v => ih v (fun r hr => hb r (List.mem_cons_of_mem _ hr))
    constructor
    · rintro ⟨vs, h, rfl⟩
      obtain ⟨v1, h1, h⟩ := py_bind_eq_ok.mp h
      obtain ⟨v2, h2, h⟩ := py_bind_eq_ok.mp h
      cases h
      obtain ⟨rows, h3, h4⟩ := (ih v2.flatten).mp ⟨v2, h2, rfl⟩
      have h5 := (hr v1.flatten).mpr ⟨v1, h1, rfl⟩
      refine ⟨v1.flatten :: rows, ?_, by simp [h4]⟩
      rw [show j.row A r = _ from rfl, Job.row, h5, py_ok_bind, h3]
      rfl
    · rintro ⟨rows, h, rfl⟩
      obtain ⟨v1, h1, h⟩ := py_bind_eq_ok.mp h
      obtain ⟨v2, h2, h⟩ := py_bind_eq_ok.mp h
      cases h
      obtain ⟨vs, h3, h4⟩ := (ih v2.flatten).mpr ⟨v2, h2, rfl⟩
      obtain ⟨us, h5, h6⟩ := (hr v1).mp h1
      refine ⟨us ++ vs, ?_, by simp [h6, h4]⟩
      rw [h5, py_ok_bind, h3]
      rfl

/-- A row filtered one pixel at a time is the row filtered at once. -/
theorem C65_pixel (A : Arith K) (compat : ℕ) (j : Job K) (hc : 0 < j.channels) (hw : 0 < j.width)
    (hec : Spec.Independent j.channels j.nodes) (hd : j.data.length = j.width * j.height * j.channels)
    (row : ℕ) (hr : row < j.height) (out o : List (Flt K)) (ho : out.length = j.width * j.height * j.channels) :
    filterRowPixel A compat j false row out = .ok o ↔ filterRowStride A compat j row out = .ok o := by
  have hm : j.width * j.height * j.channels = j.height * (j.width * j.channels) := by ring
  have hle : (row + 1) * (j.width * j.channels) ≤ out.length := by
    rw [ho, hm]; exact Nat.mul_le_mul_right _ hr
  have hrow : (row + 1) * (j.width * j.channels) = row * (j.width * j.channels) + j.width * j.channels := by ring
  obtain ⟨a, b, c, rfl, ha, hb⟩ : ∃ a b c, out = a ++ b ++ c ∧ a.length = row * (j.width * j.channels) ∧
      b.length = j.width * j.channels :=
    ⟨out.take (row * (j.width * j.channels)), (out.drop (row * (j.width * j.channels))).take (j.width * j.channels),
      (out.drop (row * (j.width * j.channels))).drop (j.width * j.channels), by
        rw [List.append_assoc, List.take_append_drop, List.take_append_drop], by
        rw [List.length_take]; omega, by rw [List.length_take, List.length_drop]; omega⟩
  unfold filterRowPixel filterRowStride
  cases progress j.height with
  | error e => simp only [py_error_bind]
  | ok u =>
    simp only [py_ok_bind, Bool.false_eq_true, if_false]
    have hlen : ∀ i, i < row * j.width + j.width →
        (j.data.slice A (i * j.channels) (i * j.channels + j.channels)).length = j.channels := by
      intro i hi
      refine slice_length A j.data _ _ ?_
      have h1 := Nat.mul_le_mul_right j.channels (show i + 1 ≤ row * j.width + j.width by omega)
      have e : (i + 1) * j.channels = i * j.channels + j.channels := by ring
      have e' : (row * j.width + j.width) * j.channels = (row + 1) * (j.width * j.channels) := by ring
      rw [hd, ← ho]
      omega
    have hpix := copyAll_eq A (fun i => filterValues A compat j 0
      (j.data.slice A (i * j.channels) (i * j.channels + j.channels))) j.channels c j.width (row * j.width)
      (fun i _ hi v hv => by rw [filterValues_length A compat j _ _ _ hv, hlen i hi]) a b
      (by rw [ha]; ring) (by rw [hb])
    rw [List.range'_eq_map_range, List.foldlM_map] at hpix
    rw [hpix]
    have hrp := row_pixels A compat j hc hec (row * j.width) j.width hw (by
      rw [hd, ← ho]
      have e' : (row * j.width + j.width) * j.channels = (row + 1) * (j.width * j.channels) := by ring
      omega)
    have hcopy : ∀ v : List (Flt K), v.length = j.width * j.channels →
        copyInto A (a ++ b ++ c) (row * j.width * j.channels) (j.width * j.channels) v
          = .ok (a ++ v.map A.f32 ++ c) := by
      intro v hv
      have := copyInto_eq A a b c v (by rw [hb, hv])
      rw [ha, hv, ← Nat.mul_assoc] at this
      exact this
    have hsl : (j.data.slice A (row * j.width * j.channels) (row * j.width * j.channels + j.width * j.channels)).length
        = j.width * j.channels := by
      refine slice_length A j.data _ _ ?_
      rw [hd, ← ho, Nat.mul_assoc]
      omega
    rw [← List.range'_eq_map_range]
    constructor
    · intro h
      obtain ⟨vs, h1, h2⟩ := py_bind_eq_ok.mp h
      have h3 := (hrp vs.flatten).mpr ⟨vs, h1, rfl⟩
      rw [h3, py_ok_bind, hcopy _ (by rw [filterValues_length A compat j _ _ _ h3, hsl])]
      exact h2
    · intro h
      obtain ⟨v, h1, h2⟩ := py_bind_eq_ok.mp h
      obtain ⟨vs, h3, rfl⟩ := (hrp v).mp h1
      rw [hcopy _ (by rw [filterValues_length A compat j _ _ _ h1, hsl])] at h2
      rw [h3, py_ok_bind]
      exact h2

/-- A job with a matrix on two rows of two RGB pixels. -/
example : ∃ j : Job ℚ, 0 < j.channels ∧ 0 < j.width ∧ 0 < j.height ∧ Spec.Independent j.channels j.nodes ∧
    j.data.length = j.width * j.height * j.channels ∧
    filterRowPixel ratArith 0 j false 1 (List.replicate 12 (.fin 0))
      = .ok ([0, 0, 0, 0, 0, 0, 14, 16, 18, 20, 22, 24].map .fin) := by
  refine ⟨⟨[doubler], none, none, .floats ([1, 2, 3, 4, 5, 6, 7, 8, 9, 10, 11, 12].map .fin), 2, 2, 3⟩, by decide,
    by decide, by decide, ?_, rfl, by decide +kernel⟩
  intro n hn m hm k b h
  rw [List.mem_singleton.mp hn] at hm
  cases hm
  cases h
  trivial

/-! ## C66: one process -/

theorem filterJob_size {img : Image K} {ns : List (Node K)} {p : PixelArray K} {outBitDepth : Option AVal}
    (hi : p.image = img) : (filterJob ns p outBitDepth).2.data = p.data ∧
      (filterJob ns p outBitDepth).2.width = img.width ∧ (filterJob ns p outBitDepth).2.height = img.height ∧
      (filterJob ns p outBitDepth).2.channels = img.channels := by
  simp only [filterJob, hi, and_self]

/-- C66, what is written: row 5 is filtered, all other rows are zeros.  Missing: every other
row. -/
theorem C66_row5_partial (A : Arith K) (compat : ℕ) (img : Image K) (ns : List (Node K)) (outBitDepth : Option AVal)
    (processes : ℕ) (hp : processes ≤ 1) (schedule : List ℕ) (hs : Spec.Sized img) (hh : 6 ≤ img.height)
    (p : PixelArray K) (hr : readPixelArray (some img) = .ok p) (row : List (Flt K))
    (hrow : filterValues A compat (filterJob ns p outBitDepth).2 img.channels
      ((filterJob ns p outBitDepth).2.row A 5) = .ok row) :
    filterImage A compat (some img) ns outBitDepth processes schedule = (do
      let out ← writePixelArray (List.replicate (5 * (img.width * img.channels)) (Flt.fin 0) ++ row.map A.f32 ++
        List.replicate ((img.height - 6) * (img.width * img.channels)) (Flt.fin 0)) (filterJob ns p outBitDepth).1 img
      .ok (some out)) := by
  unfold filterImage
  obtain ⟨hi, hl⟩ := read_image hr
  rw [hr]
  simp only [py_ok_bind, if_neg (show ¬ 1 < processes by omega)]
  obtain ⟨e1, e2, e3, e4⟩ := filterJob_size (ns := ns) (outBitDepth := outBitDepth) hi
  set j := (filterJob ns p outBitDepth).2 with hj
  have hd : j.data.length = j.width * j.height * j.channels := by rw [e1, e2, e3, e4, hl, hs]
  have hv := filterValues_length A compat j _ _ _ hrow
  rw [row_length A j hd 5 (by omega)] at hv
  have hz : List.replicate (j.width * j.height * j.channels) (Flt.fin (0 : K))
      = List.replicate (5 * (j.width * j.channels)) (Flt.fin 0) ++ List.replicate (j.width * j.channels) (Flt.fin 0) ++
        List.replicate ((j.height - 6) * (j.width * j.channels)) (Flt.fin 0) := by
    rw [List.replicate_append_replicate, List.replicate_append_replicate]
    congr 1
    obtain ⟨h, hh⟩ := Nat.exists_eq_add_of_le (show 6 ≤ j.height by omega)
    rw [hh, Nat.add_sub_cancel_left]
    ring
  have hc := copyInto_eq A (List.replicate (5 * (j.width * j.channels)) (Flt.fin (0 : K)))
    (List.replicate (j.width * j.channels) (Flt.fin 0))
    (List.replicate ((j.height - 6) * (j.width * j.channels)) (Flt.fin 0)) row (by simp [hv])
  rw [List.length_replicate, hv] at hc
  have hrow' : filterRowStride A compat j 5 (List.replicate (j.width * j.height * j.channels) (Flt.fin (0 : K)))
      = .ok (List.replicate (5 * (j.width * j.channels)) (Flt.fin 0) ++ row.map A.f32 ++
        List.replicate ((j.height - 6) * (j.width * j.channels)) (Flt.fin 0)) := by
    unfold filterRowStride
    rw [progress_ok _ (by omega)]
    simp only [py_ok_bind]
    rw [show j.data.slice A (5 * j.width * j.channels) (5 * j.width * j.channels + j.width * j.channels) = j.row A 5
      from rfl]
    rw [← e4] at hrow
    rw [hrow, py_ok_bind, hz, Nat.mul_assoc, hc]
  rw [hrow', py_ok_bind, e2, e3, e4, hi]
  rfl

/-- C66 is false: images of less than six rows cannot be filtered at all. -/
theorem C66_low (A : Arith K) (compat : ℕ) (img : Image K) (ns : List (Node K)) (outBitDepth : Option AVal)
    (processes : ℕ) (hp : processes ≤ 1) (schedule : List ℕ) (hs : Spec.Sized img) (hm : 0 < img.width * img.channels)
    (hh : img.height < 6) : ∃ e, filterImage A compat (some img) ns outBitDepth processes schedule = .error e := by
  unfold filterImage
  cases hr : readPixelArray (some img) with
  | error e => exact ⟨e, rfl⟩
  | ok p =>
    obtain ⟨hi, hl⟩ := read_image hr
    simp only [py_ok_bind, if_neg (show ¬ 1 < processes by omega)]
    obtain ⟨e1, e2, e3, e4⟩ := filterJob_size (ns := ns) (outBitDepth := outBitDepth) hi
    set j := (filterJob ns p outBitDepth).2 with hj
    have hd : j.data.length = j.width * j.height * j.channels := by rw [e1, e2, e3, e4, hl, hs]
    generalize List.replicate (j.width * j.height * j.channels) (Flt.fin (0 : K)) = zeros
    suffices h : ∃ e, filterRowStride A compat j 5 zeros = .error e by
      obtain ⟨e, he⟩ := h
      exact ⟨e, by rw [he]; rfl⟩
    unfold filterRowStride
    cases progress j.height with
    | error e => exact ⟨e, rfl⟩
    | ok u =>
      simp only [py_ok_bind]
      cases hv : filterValues A compat j j.channels
          (j.data.slice A (5 * j.width * j.channels) (5 * j.width * j.channels + j.width * j.channels)) with
      | error e => exact ⟨e, rfl⟩
      | ok v =>
        have h0 : v = [] := by
          have hlen := filterValues_length A compat j _ _ _ hv
          have hb : j.data.length ≤ 5 * j.width * j.channels := by
            rw [hd]
            have := Nat.mul_le_mul_right (j.width * j.channels) (show j.height ≤ 5 by omega)
            calc j.width * j.height * j.channels = j.height * (j.width * j.channels) := by ring
              _ ≤ 5 * (j.width * j.channels) := this
              _ = _ := by ring
          have hs0 : (j.data.slice A (5 * j.width * j.channels)
              (5 * j.width * j.channels + j.width * j.channels)).length = 0 := by
            revert hb
            cases j.data <;> simp [Samples.slice, pySlice, Samples.length] <;> omega
          exact List.length_eq_zero_iff.mp (hlen.trans hs0)
        rw [py_ok_bind, h0]
        unfold copyInto
        obtain ⟨m, hm⟩ := Nat.exists_eq_add_of_lt hm
        rw [e2, e4, hm, Nat.zero_add, List.range_succ_eq_map, List.foldlM_cons]
        exact ⟨.indexError, rfl⟩

/-- An image of floats, one pixel wide, all of whose values are 1. -/
def onesImage (h : ℕ) : Image ℚ := ⟨.float, 1, h, 3, none, .floats (List.replicate (h * 3) (.fin 1))⟩

/-- C66 is false: of six rows, five are lost, whereas all are filtered with two processes. -/
theorem C66_false : ∃ (ns : List (Node ℚ)),
    filterImage ratArith 0 (some (onesImage 6)) ns none 1 []
      = .ok (some { onesImage 6 with
          data := .floats (List.replicate 15 (.fin 0) ++ List.replicate 3 (.fin 2)) }) ∧
    Spec.filterSequential ratArith 0 (onesImage 6) ns none
      = .ok (some { onesImage 6 with data := .floats (List.replicate 18 (.fin 2)) }) :=
  ⟨[doubler], by decide +kernel, by decide +kernel⟩

/-! ## C73: heights -/

/-- C73 is false: an image of one row is never written, with any list, any number of processes
and any schedule. -/
theorem C73_false (A : Arith K) (compat : ℕ) (img : Image K) (ns : List (Node K)) (outBitDepth : Option AVal)
    (processes : ℕ) (schedule : List ℕ) (hs : Spec.Sized img) (hm : 0 < img.width * img.channels)
    (hh : img.height = 1) (out : Image K) :
    filterImage A compat (some img) ns outBitDepth processes schedule ≠ .ok (some out) := by
  by_cases hp : 1 < processes
  · by_cases hf : Spec.Finished processes img.height schedule
    · rw [C65_parallel A compat img ns outBitDepth processes hp schedule hs hm hf]
      unfold Spec.filterSequential
      cases hr : readPixelArray (some img) with
      | error e => exact fun h => nomatch h
      | ok p =>
        obtain ⟨hi, hl⟩ := read_image hr
        obtain ⟨e1, e2, e3, e4⟩ := filterJob_size (ns := ns) (outBitDepth := outBitDepth) hi
        simp only [py_ok_bind]
        rw [(low_rows A compat (filterJob ns p outBitDepth).2 (by rw [e2, e4]; exact hm) (by rw [e3]; exact hh) _).1]
        exact fun h => nomatch h
    · exact C65_unfinished A compat img ns outBitDepth processes hp schedule hf out
  · obtain ⟨e, he⟩ := C66_low A compat img ns outBitDepth processes (by omega) schedule hs hm (by omega)
    rw [he]
    exact fun h => nomatch h

example : ∃ img : Image ℚ, Spec.Sized img ∧ 0 < img.width * img.channels ∧ img.height = 1 ∧
    Spec.Finished 2 1 [0, 0] :=
  ⟨onesImage 1, rfl, by decide, rfl, by unfold Spec.Finished; decide⟩

/-- C73 for at least two rows and worker processes: if the rows can be filtered, they are
written.  Missing: images of one row, and filtering with one process. -/
theorem C73_partial (A : Arith K) (compat : ℕ) (img : Image K) (ns : List (Node K)) (outBitDepth : Option AVal)
    (workers : ℕ) (hw : 1 < workers) (schedule : List ℕ) (hs : Spec.Sized img) (hm : 0 < img.width * img.channels)
    (hh : 2 ≤ img.height) (hf : Spec.Finished workers img.height schedule)
    (p : PixelArray K) (hr : readPixelArray (some img) = .ok p) (rows : List (List (Flt K)))
    (hrows : Spec.filteredRows A compat (filterJob ns p outBitDepth).2 = .ok rows) :
    filterImage A compat (some img) ns outBitDepth workers schedule = (do
      let out ← writePixelArray (rows.flatten.map A.f32) (filterJob ns p outBitDepth).1 img
      .ok (some out)) := by
  rw [C65_parallel A compat img ns outBitDepth workers hw schedule hs hm hf]
  unfold Spec.filterSequential
  obtain ⟨hi, hl⟩ := read_image hr
  obtain ⟨e1, e2, e3, e4⟩ := filterJob_size (ns := ns) (outBitDepth := outBitDepth) hi
  rw [hr]
  simp only [py_ok_bind]
  rw [sequential_eq A compat _ (by rw [e1, e2, e3, e4, hl, hs]) (by omega), hrows]
  rfl

/-- Two rows, two workers that finish in the opposite order. -/
example : filterImage ratArith 0 (some (onesImage 2)) [doubler] none 2 [0, 1, 1, 0]
    = .ok (some { onesImage 2 with data := .floats (List.replicate 6 (.fin 2)) }) := by decide +kernel

end CLF
