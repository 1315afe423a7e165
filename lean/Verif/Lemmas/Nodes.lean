import Verif.Lemmas.Shape
import Verif.Lemmas.Range

/-! # Lemmas: trees and lists of nodes -/

set_option linter.unusedSectionVars false

namespace CLF

variable {K : Type} [Field K] [LinearOrder K] [IsStrictOrderedRing K] [FloorRing K]

/-- Structural induction over nodes. -/
theorem Node.ind {P : Node K → Prop} (hleaf : ∀ k b, P (.leaf k b))
    (hgroup : ∀ b cs, (∀ c ∈ cs, P c) → P (.group b cs))
    (href : ∀ b w ns, (∀ c ∈ ns, P c) → P (.ref b w ns))
    (hmiss : ∀ b w, P (.refMissing b w)) (n : Node K) : P n := by
  refine Node.rec (motive_1 := P) (motive_2 := fun ns => ∀ c ∈ ns, P c) hleaf hgroup href hmiss
    ?_ ?_ n
  · intro c hc; cases hc
  · intro n ns hn hns c hc
    rcases List.mem_cons.mp hc with rfl | hc
    exacts [hn, hns c hc]

/-! ### Range as a pointwise map -/

theorem range_shape (A : Arith K) (b : Base K) :
    (∃ e, ∀ v, rangeProcess A b v = .error e) ∨
    ∃ f : Flt K → Py (Flt K), (∀ v, rangeProcess A b v = (do let o ← v.mapM f; .ok ⟨o, o, true⟩)) ∧
      (Casts A → ∀ x y, f x = .ok y → A.f32 y = y) := by
  cases h1 : b.attrE "inBitDepth" with
  | error e => exact .inl ⟨e, fun v => by unfold rangeProcess; rw [h1]; rfl⟩
  | ok d1 =>
    cases h2 : b.attrE "outBitDepth" with
    | error e => exact .inl ⟨e, fun v => by unfold rangeProcess; rw [h1, h2]; rfl⟩
    | ok d2 =>
      refine .inr ⟨_, fun v => by
        unfold rangeProcess; rw [h1, h2]; simp only [py_ok_bind]; rw [chanLoop_const]; rfl, ?_⟩
      intro hA x y h
      unfold rangeStep at h
      simp only at h
      split at h
      · obtain ⟨_, _, h⟩ := py_bind_eq_ok.mp h
        exact bind_pure_f32 hA h
      · exact bind_pure_f32 hA h
      · exact bind_pure_f32 hA h
      · exact bind_pure_f32 hA h

/-! ### Lengths -/

theorem leaf_zero (A : Arith K) (compat : ℕ) (k : Kind K) (b : Base K) (v : List (Flt K)) :
    leafProcess A compat k b v 0 = leafProcess A compat k b v v.length := by
  cases k <;> simp only [leafProcess, matrixProcess, lut1dProcess, lut3dProcess, ecProcess,
    gammaProcess, logProcess, viewLoop, pixelLoop_zero v]
  case cdl cc w =>
    unfold cdlProcess
    by_cases h : v.length = 0 <;> simp [h]

theorem leaf_empty (A : Arith K) (compat : ℕ) (k : Kind K) (b : Base K) (r : Res K)
    (h : leafProcess A compat k b [] 0 = .ok r) : r.out = [] ∧ r.arg = [] := by
  cases k <;> simp only [leafProcess, matrixProcess, lut1dProcess, lut3dProcess, ecProcess,
    gammaProcess, logProcess, viewLoop, pixelLoop_empty] at h
  case range =>
    rcases range_shape A b with ⟨e, he⟩ | ⟨f, hf, _⟩
    · rw [he] at h; cases h
    · rw [hf] at h; cases h; exact ⟨rfl, rfl⟩
  case cdl cc w => cases h; exact ⟨rfl, rfl⟩
  case plain => cases h
  all_goals
    repeat
      first
      | (obtain ⟨_, _, h⟩ := py_bind_eq_ok.mp h)
      | cases h

theorem ecChannels_props {A : Arith K} {st : AVal} {e c p : Flt K} {d1 d2 : Depth}
    {px r : List (Flt K)} (h : ecChannels A st e c p d1 d2 px = .ok r) :
    r.length = px.length ∧ (Casts A → Stored A px → Stored A r) := by
  unfold ecChannels at h
  split_ifs at h
  · refine ⟨(chanLoop_length h).2, fun hA hs => chanLoop_stored ?_ hs h⟩
    intro i x y h
    obtain ⟨_, _, h⟩ := py_bind_eq_ok.mp h
    exact bind_pure_f32 hA h
  · refine ⟨(chanLoop_length h).2, fun hA hs => chanLoop_stored ?_ hs h⟩
    intro i x y h
    obtain ⟨_, _, h⟩ := py_bind_eq_ok.mp h
    obtain ⟨_, _, h⟩ := py_bind_eq_ok.mp h
    obtain ⟨_, _, h⟩ := py_bind_eq_ok.mp h
    cases h
  · refine ⟨(chanLoop_length h).2, fun hA hs => chanLoop_stored ?_ hs h⟩
    intro i x y h
    cases h
  · cases h; exact ⟨rfl, fun _ hs => hs⟩

/-- A leaf node keeps the number of values and, if it is given storable values,
returns storable values. -/
theorem leaf_props (A : Arith K) (compat : ℕ) (k : Kind K) (b : Base K) (s : ℕ)
    (v : List (Flt K)) (r : Res K) (h : leafProcess A compat k b v s = .ok r) :
    r.out.length = v.length ∧ r.arg.length = v.length ∧
      (Casts A → Stored A v → Stored A r.out) := by
  wlog hs : 0 < s generalizing s
  · obtain rfl : s = 0 := by omega
    rcases v with _ | ⟨x, xs⟩
    · obtain ⟨h1, h2⟩ := leaf_empty A compat k b r h
      rw [h1, h2]
      exact ⟨rfl, rfl, fun _ h => h⟩
    · rw [leaf_zero] at h
      exact this _ h (by simp)
  by_cases hk : k.perPixel
  · rcases leaf_shape A compat k b s hs hk with ⟨e, he⟩ | hi | ⟨g, hg, good⟩
    · rw [he] at h; cases h
    · rw [hi] at h; cases h; exact ⟨rfl, rfl, fun _ h => h⟩
    · rw [hg] at h
      have hlen : ∀ vals px v' o, vals.length = v.length → px.length = s → s ≤ v.length →
          (fun (_ : List (Flt K)) px => g px) vals px = .ok (v', o) → v'.length = s ∧ o.length = s := by
        intro _ px v' o _ hpx _ h
        obtain ⟨h1, h2⟩ := good.len _ _ _ h
        exact ⟨h1.trans hpx, h2.trans hpx⟩
      obtain ⟨h1, h2, _, _⟩ := pixelLoop_inv s hs v _ hlen (fun _ => True) (fun _ => True) trivial
        trivial (fun _ _ _ _ _ _ _ _ _ _ _ => ⟨trivial, trivial⟩) r h
      refine ⟨h2, h1, fun hA hv => ?_⟩
      refine (pixelLoop_inv s hs v _ hlen (Stored A) (Stored A) hv ?_ ?_ r h).2.2.2
      · intro x hx
        rw [List.eq_of_mem_replicate hx]; exact hA.zero
      · intro vals out p v' o _ _ _ hi ho hb
        obtain ⟨h1, h2⟩ := good.stored hA _ _ _ (hi.slice _ _) hb
        exact ⟨hi.splice h1 _, ho.splice h2 _⟩
  · cases k with
    | range =>
      simp only [leafProcess] at h
      rcases range_shape A b with ⟨e, he⟩ | ⟨f, hf, hst⟩
      · rw [he] at h; cases h
      · rw [hf] at h
        obtain ⟨o, ho, h⟩ := py_bind_eq_ok.mp h
        cases h
        refine ⟨py_mapM_length ho, py_mapM_length ho, fun hA _ x hx => ?_⟩
        obtain ⟨a, _, ha⟩ := forall₂_mem_right (py_mapM_eq_ok.mp ho) hx
        exact hst hA _ _ ha
    | exposureContrast e c p =>
      simp only [leafProcess, ecProcess] at h
      obtain ⟨d1, _, h⟩ := py_bind_eq_ok.mp h
      obtain ⟨d2, _, h⟩ := py_bind_eq_ok.mp h
      have hlen : ∀ vals px v' o, vals.length = v.length → px.length = s → s ≤ v.length →
          (do
            let px' ← ecChannels A (b.styleOf "style") e c p d1 d2 px
            let o := px'.take 3 ++ pySlice vals (min 3 px.length) px.length
            pure (o, o)) = (.ok (v', o) : Py _) → v'.length = s ∧ o.length = s := by
        intro vals px v' o hvals hpx hsv h
        obtain ⟨px', h1, h⟩ := py_bind_eq_ok.mp h
        cases h
        have := (ecChannels_props h1).1
        have : (px'.take 3 ++ pySlice vals (min 3 px.length) px.length).length = s := by
          rw [List.length_append, pySlice_length _ _ _ (by omega), List.length_take]
          omega
        exact ⟨this, this⟩
      obtain ⟨h1, h2, _, _⟩ := pixelLoop_inv s hs v _ hlen (fun _ => True) (fun _ => True) trivial
        trivial (fun _ _ _ _ _ _ _ _ _ _ _ => ⟨trivial, trivial⟩) r h
      refine ⟨h2, h1, fun hA hv => ?_⟩
      refine (pixelLoop_inv s hs v _ hlen (Stored A) (Stored A) hv ?_ ?_ r h).2.2.2
      · intro x hx
        rw [List.eq_of_mem_replicate hx]; exact hA.zero
      · intro vals out p v' o _ _ _ hi ho hb
        obtain ⟨px', h1, hb⟩ := py_bind_eq_ok.mp hb
        cases hb
        have : Stored A (px'.take 3 ++ pySlice vals (min 3 (pySlice vals (p * s) ((p + 1) * s)).length)
            (pySlice vals (p * s) ((p + 1) * s)).length) :=
          stored_append.mpr ⟨((ecChannels_props h1).2 hA (hi.slice _ _)).take 3, hi.slice _ _⟩
        exact ⟨hi.splice this _, ho.splice this _⟩
    | _ => exact (hk trivial).elim

/-! ### Lists as functions of the current result -/

/-- The result array of a node. -/
def Node.outOf (A : Arith K) (compat stride : ℕ) (n : Node K) (v : List (Flt K)) :
    Py (List (Flt K)) := do
  let r ← n.process A compat stride v
  .ok r.out

/-- The effect of one position of a list on the current result. -/
def stepOut (A : Arith K) (compat stride : ℕ) (inGroup : Bool) (prev : Option Depth)
    (n : Node K) (rest : List (Node K)) (v : List (Flt K)) : Py (List (Flt K)) :=
  if (n.attr "bypass").isNone || (!inGroup && !hasFeature compat autodesk) then
    n.outOf A compat stride v
  else
    match prev, rest with
    | some inD, next :: _ =>
      if inD ≠ next.inDepth then do
        let r ← rangeProcess A (adapterBase inD next.inDepth) v
        .ok r.out
      else .ok v
    | _, _ => .ok v

/-- The effect of a list on the current result. -/
def runOut (A : Arith K) (compat stride : ℕ) (inGroup : Bool) :
    Option Depth → List (Node K) → List (Flt K) → Py (List (Flt K))
  | _, [], v => .ok v
  | prev, n :: rest, v => do
    let v' ← stepOut A compat stride inGroup prev n rest v
    runOut A compat stride inGroup (some n.outDepth) rest v'

theorem runNodes_cons (A : Arith K) (compat stride : ℕ) (g : Bool) (prev : Option Depth)
    (n : Node K) (rest : List (Node K)) (s : Res K) :
    runNodes A compat stride g prev (n :: rest) s = (do
      let s' ←
        if (n.attr "bypass").isNone || (!g && !hasFeature compat autodesk) then do
          let r ← n.process A compat stride s.out
          pure (s.step r)
        else
          match prev, rest with
          | some inD, next :: _ =>
            if inD ≠ next.inDepth then do
              let r ← rangeProcess A (adapterBase inD next.inDepth) s.out
              pure (s.step r)
            else pure s
          | _, _ => pure s
      runNodes A compat stride g (some n.outDepth) rest s') := by
  cases prev <;> cases rest <;> rfl

theorem runNodes_out (A : Arith K) (compat stride : ℕ) (g : Bool) (ns : List (Node K)) :
    ∀ (prev : Option Depth) (s : Res K),
    (do let r ← runNodes A compat stride g prev ns s; .ok r.out : Py (List (Flt K)))
      = runOut A compat stride g prev ns s.out := by
  induction ns with
  | nil => intro prev s; rfl
  | cons n rest ih =>
    intro prev s
    rw [runOut, runNodes_cons]
    unfold stepOut Node.outOf
    split_ifs with h
    · cases n.process A compat stride s.out with
      | error e => rfl
      | ok r => exact ih (some n.outDepth) (s.step r)
    · cases prev with
      | none => exact ih (some n.outDepth) s
      | some inD =>
        cases rest with
        | nil => exact ih (some n.outDepth) s
        | cons next rest =>
          simp only
          split_ifs with h2
          · cases rangeProcess A (adapterBase inD next.inDepth) s.out with
            | error e => rfl
            | ok r => exact ih (some n.outDepth) (s.step r)
          · exact ih (some n.outDepth) s

theorem processList_eq (A : Arith K) (compat : ℕ) (ns : List (Node K)) (v : List (Flt K))
    (stride : ℕ) :
    processList A compat ns v stride = runOut A compat stride false none ns (v.map A.f32) :=
  runNodes_out A compat stride false ns none ⟨v.map A.f32, v.map A.f32, true⟩

theorem outOf_leaf (A : Arith K) (compat stride : ℕ) (k : Kind K) (b : Base K) (v : List (Flt K)) :
    (Node.leaf k b).outOf A compat stride v
      = (do let r ← leafProcess A compat k b v stride; .ok r.out) := rfl

theorem outOf_group (A : Arith K) (compat stride : ℕ) (b : Base K) (cs : List (Node K))
    (v : List (Flt K)) :
    (Node.group b cs).outOf A compat stride v = runOut A compat stride true none cs v :=
  runNodes_out A compat stride true cs none ⟨v, v, true⟩

theorem outOf_ref (A : Arith K) (compat stride : ℕ) (b : Base K) (w : Bool) (ns : List (Node K))
    (v : List (Flt K)) :
    (Node.ref b w ns).outOf A compat stride v
      = runOut A compat stride false none ns (v.map A.f32) := by
  have := runNodes_out A compat stride false ns none ⟨v.map A.f32, v.map A.f32, true⟩
  rw [← this]
  unfold Node.outOf
  rw [Node.process]
  cases runNodes A compat stride false none ns ⟨v.map A.f32, v.map A.f32, true⟩ <;> rfl

theorem outOf_missing (A : Arith K) (compat stride : ℕ) (b : Base K) (w : Bool) (v : List (Flt K)) :
    (Node.refMissing b w : Node K).outOf A compat stride v = .ok v := rfl

/-! ### Properties that pass from nodes to lists -/

/-- A property of functions on arrays that lists of nodes inherit. -/
structure Closed (A : Arith K) (P : (List (Flt K) → Py (List (Flt K))) → Prop) : Prop where
  ident : P fun v => .ok v
  comp : ∀ f g, P f → P g → P fun v => do let w ← f v; g w
  cast : P fun v => .ok (v.map A.f32)

theorem runOut_closed {A : Arith K} {P : (List (Flt K) → Py (List (Flt K))) → Prop}
    (hP : Closed A P) (compat stride : ℕ) (g : Bool)
    (ns : List (Node K)) (hns : ∀ n ∈ ns, P (n.outOf A compat stride))
    (had : (∀ n ∈ ns, n.attr "bypass" = none) ∨
      ∀ d1 d2, P fun v => do let r ← rangeProcess A (adapterBase d1 d2) v; .ok r.out) :
    ∀ prev, P (runOut A compat stride g prev ns) := by
  induction ns with
  | nil => intro prev; exact hP.ident
  | cons n rest ih =>
    intro prev
    have h2 := ih (fun m hm => hns m (by simp [hm])) (had.imp (fun h m hm => h m (by simp [hm])) id)
      (some n.outDepth)
    have h1 : P (stepOut A compat stride g prev n rest) := by
      by_cases h : ((n.attr "bypass").isNone || (!g && !hasFeature compat autodesk)) = true
      · have : stepOut A compat stride g prev n rest = n.outOf A compat stride := by
          funext v; unfold stepOut; rw [if_pos h]
        rw [this]; exact hns n (by simp)
      · have hby : ∀ d1 d2, P (fun v => do
            let r ← rangeProcess A (adapterBase d1 d2) v; .ok r.out) := by
          rcases had with hn | ha
          · rw [hn n (by simp)] at h; simp at h
          · exact ha
        have hid : (stepOut A compat stride g prev n rest = fun v => .ok v) ∨
            ∃ d1 d2, stepOut A compat stride g prev n rest
              = (fun v => do let r ← rangeProcess A (adapterBase d1 d2) v; .ok r.out) := by
          unfold stepOut
          simp only [if_neg h]
          cases prev with
          | none => exact .inl rfl
          | some inD =>
            cases rest with
            | nil => exact .inl rfl
            | cons next rest =>
              by_cases h2 : inD ≠ next.inDepth
              · exact .inr ⟨inD, next.inDepth, by funext v; simp only [if_pos h2]⟩
              · exact .inl (by funext v; simp only [if_neg h2])
        rcases hid with hid | ⟨d1, d2, hid⟩
        · rw [hid]; exact hP.ident
        · rw [hid]; exact hby d1 d2
    exact hP.comp _ _ h1 h2

/-- A property that leaf nodes have and lists inherit holds of every node tree. -/
theorem outOf_closed {A : Arith K} {P : (List (Flt K) → Py (List (Flt K))) → Prop}
    (hP : Closed A P) (compat stride : ℕ) (L : Kind K → Base K → Prop)
    (hleaf : ∀ k b, L k b → P fun v => do let r ← leafProcess A compat k b v stride; .ok r.out)
    (had : Prop)
    (hadapt : had ∨ ∀ d1 d2, P fun v => do let r ← rangeProcess A (adapterBase d1 d2) v; .ok r.out)
    (n : Node K) :
    (∀ m, Within m n → (had → m.attr "bypass" = none) ∧ ∀ k b, m = .leaf k b → L k b) →
    P (n.outOf A compat stride) := by
  induction n using Node.ind with
  | hleaf k b => intro h; exact hleaf k b ((h _ .self).2 k b rfl)
  | hgroup b cs ih =>
    intro h
    have : (Node.group b cs).outOf A compat stride = runOut A compat stride true none cs := by
      funext v; exact outOf_group A compat stride b cs v
    rw [this]
    refine runOut_closed hP compat stride true cs
      (fun n hn => ih n hn fun m hm => h m (.group hn hm)) ?_ none
    exact hadapt.imp (fun hh n hn => (h n (.group hn .self)).1 hh) id
  | href b w ns ih =>
    intro h
    have : (Node.ref b w ns).outOf A compat stride
        = (fun v => do let w ← (.ok (v.map A.f32) : Py _); runOut A compat stride false none ns w) := by
      funext v; exact outOf_ref A compat stride b w ns v
    rw [this]
    refine hP.comp (fun v => .ok (v.map A.f32)) _ hP.cast (runOut_closed hP compat stride false ns
      (fun n hn => ih n hn fun m hm => h m (.ref hn hm)) ?_ none)
    exact hadapt.imp (fun hh n hn => (h n (.ref hn .self)).1 hh) id
  | hmiss b w => intro _; exact hP.ident

theorem processList_closed {A : Arith K} {P : (List (Flt K) → Py (List (Flt K))) → Prop}
    (hP : Closed A P) (compat stride : ℕ) (L : Kind K → Base K → Prop)
    (hleaf : ∀ k b, L k b → P fun v => do let r ← leafProcess A compat k b v stride; .ok r.out)
    (had : Prop)
    (hadapt : had ∨ ∀ d1 d2, P fun v => do let r ← rangeProcess A (adapterBase d1 d2) v; .ok r.out)
    (ns : List (Node K))
    (h : ∀ n ∈ ns, ∀ m, Within m n → (had → m.attr "bypass" = none) ∧ ∀ k b, m = .leaf k b → L k b) :
    P (fun v => processList A compat ns v stride) := by
  have : (fun v => processList A compat ns v stride)
      = (fun v => do let w ← (.ok (v.map A.f32) : Py _); runOut A compat stride false none ns w) := by
    funext v; exact processList_eq A compat ns v stride
  rw [this]
  refine hP.comp (fun v => .ok (v.map A.f32)) _ hP.cast (runOut_closed hP compat stride false ns
    (fun n hn => outOf_closed hP compat stride L hleaf had hadapt n (h n hn)) ?_ none)
  exact hadapt.imp (fun hh n hn => (h n hn n .self).1 hh) id

/-! ### Instances -/

/-- Length preserving. -/
def KeepsLength (f : List (Flt K) → Py (List (Flt K))) : Prop :=
  ∀ v r, f v = .ok r → r.length = v.length

theorem closed_length (A : Arith K) : Closed A (KeepsLength (K := K)) where
  ident := by intro v r h; cases h; rfl
  comp f g hf hg := by
    intro v r h
    obtain ⟨w, h1, h2⟩ := py_bind_eq_ok.mp h
    exact (hg _ _ h2).trans (hf _ _ h1)
  cast := by intro v r h; cases h; simp

theorem leaf_length (A : Arith K) (compat stride : ℕ) (k : Kind K) (b : Base K) :
    KeepsLength (fun v => do let r ← leafProcess A compat k b v stride; .ok r.out) := by
  intro v r h
  obtain ⟨w, h1, h2⟩ := py_bind_eq_ok.mp h
  cases h2
  exact (leaf_props A compat k b stride v w h1).1

theorem adapter_length (A : Arith K) (d1 d2 : Depth) :
    KeepsLength (fun v => do let r ← rangeProcess A (adapterBase d1 d2) v; .ok r.out) :=
  leaf_length A 0 0 .range _

/-- Storable values go to storable values. -/
def KeepsStored (A : Arith K) (f : List (Flt K) → Py (List (Flt K))) : Prop :=
  ∀ v r, Stored A v → f v = .ok r → Stored A r

theorem closed_stored (A : Arith K) (hA : Casts A) : Closed A (KeepsStored A) where
  ident := by intro v r hv h; cases h; exact hv
  comp f g hf hg := by
    intro v r hv h
    obtain ⟨w, h1, h2⟩ := py_bind_eq_ok.mp h
    exact hg _ _ (hf _ _ hv h1) h2
  cast := by intro v r _ h; cases h; exact stored_map hA v

theorem leaf_stored (A : Arith K) (hA : Casts A) (compat stride : ℕ) (k : Kind K) (b : Base K) :
    KeepsStored A (fun v => do let r ← leafProcess A compat k b v stride; .ok r.out) := by
  intro v r hv h
  obtain ⟨w, h1, h2⟩ := py_bind_eq_ok.mp h
  cases h2
  exact (leaf_props A compat k b stride v w h1).2.2 hA hv

/-! ### Pixel by pixel -/

/-- On whole pixels of `s` channels, at least one, `f` succeeds exactly if it does on
each pixel, with the concatenation as result; `R` holds between each pixel and its
result. -/
structure Pixelwise (s : ℕ) (R : List (Flt K) → List (Flt K) → Prop)
    (f : List (Flt K) → Py (List (Flt K))) : Prop where
  len : ∀ c o, c.length = s → f c = .ok o → o.length = s
  rel : ∀ c o, c.length = s → f c = .ok o → R c o
  split : ∀ cs, cs ≠ [] → (∀ c ∈ cs, c.length = s) → ∀ r,
    f cs.flatten = .ok r ↔ ∃ os, List.Forall₂ (fun c o => f c = .ok o) cs os ∧ r = os.flatten

theorem forall₂_comp {α β γ : Type} {R : α → β → Prop} {S : β → γ → Prop} {l : List α} {n : List γ} :
    List.Forall₂ (fun a c => ∃ b, R a b ∧ S b c) l n ↔
      ∃ m, List.Forall₂ R l m ∧ List.Forall₂ S m n := by
  constructor
  · intro h
    induction h with
    | nil => exact ⟨[], .nil, .nil⟩
    | cons h _ ih =>
      obtain ⟨b, h1, h2⟩ := h
      obtain ⟨m, h3, h4⟩ := ih
      exact ⟨b :: m, .cons h1 h3, .cons h2 h4⟩
  · rintro ⟨m, h1, h2⟩
    induction h1 generalizing n with
    | nil => cases h2; exact .nil
    | cons h _ ih =>
      cases h2 with
      | cons h3 h4 => exact .cons ⟨_, h, h3⟩ (ih h4)

theorem forall₂_fun {α β : Type} {f : α → β} {l : List α} {m : List β} :
    List.Forall₂ (fun a b => (Except.ok (f a) : Py β) = .ok b) l m ↔ m = l.map f := by
  induction l generalizing m with
  | nil => simp
  | cons a l ih =>
    cases m with
    | nil => simp
    | cons b m =>
      rw [List.forall₂_cons, ih, List.map_cons, List.cons.injEq]
      constructor
      · rintro ⟨h, rfl⟩; cases h; exact ⟨rfl, rfl⟩
      · rintro ⟨rfl, rfl⟩; exact ⟨rfl, rfl⟩

theorem closed_pixelwise (A : Arith K) (s : ℕ) (R : List (Flt K) → List (Flt K) → Prop)
    (hrefl : ∀ c, R c c) (htrans : ∀ a b c, R a b → R b c → R a c) (hcast : ∀ c, R c (c.map A.f32)) :
    Closed A (Pixelwise s R) where
  ident := by
    refine ⟨?_, ?_, ?_⟩
    · intro c o hc h; cases h; exact hc
    · intro c o _ h; cases h; exact hrefl c
    · intro cs _ _ r
      constructor
      · intro h; cases h
        exact ⟨cs, by rw [forall₂_fun (f := fun x => x)]; simp, rfl⟩
      · rintro ⟨os, h1, rfl⟩
        rw [forall₂_fun (f := fun x => x)] at h1
        simp [h1]
  comp f g hf hg := by
    refine ⟨?_, ?_, ?_⟩
    · intro c o hc h
      obtain ⟨w, h1, h2⟩ := py_bind_eq_ok.mp h
      exact hg.len _ _ (hf.len _ _ hc h1) h2
    · intro c o hc h
      obtain ⟨w, h1, h2⟩ := py_bind_eq_ok.mp h
      exact htrans _ _ _ (hf.rel _ _ hc h1) (hg.rel _ _ (hf.len _ _ hc h1) h2)
    · intro cs hne hc r
      have hms : ∀ {ms : List (List (Flt K))}, List.Forall₂ (fun c o => f c = .ok o) cs ms →
          ms ≠ [] ∧ ∀ m ∈ ms, m.length = s := by
        intro ms hm
        constructor
        · rintro rfl; cases hm; exact hne rfl
        · intro m hmm
          obtain ⟨c, hcm, h⟩ := forall₂_mem_right hm hmm
          exact hf.len c m (hc c hcm) h
      simp only [py_bind_eq_ok]
      constructor
      · rintro ⟨w, h1, h2⟩
        obtain ⟨ms, hm, rfl⟩ := (hf.split cs hne hc w).mp h1
        obtain ⟨os, ho, rfl⟩ := (hg.split ms (hms hm).1 (hms hm).2 r).mp h2
        exact ⟨os, forall₂_comp.mpr ⟨ms, hm, ho⟩, rfl⟩
      · rintro ⟨os, h, rfl⟩
        obtain ⟨ms, hm, ho⟩ := forall₂_comp.mp h
        exact ⟨ms.flatten, (hf.split cs hne hc _).mpr ⟨ms, hm, rfl⟩,
          (hg.split ms (hms hm).1 (hms hm).2 _).mpr ⟨os, ho, rfl⟩⟩
  cast := by
    refine ⟨?_, ?_, ?_⟩
    · intro c o hc h; cases h; simpa using hc
    · intro c o _ h; cases h; exact hcast c
    · intro cs _ _ r
      simp only [forall₂_fun, exists_eq_left]
      constructor
      · intro h; cases h; simp [List.map_flatten]
      · rintro rfl; simp [List.map_flatten]

theorem pixelLoop_pixelwise {A : Arith K} (s : ℕ) (hs : 0 < s) {keep : Prop}
    (R : List (Flt K) → List (Flt K) → Prop)
    (g : List (Flt K) → Py (List (Flt K) × List (Flt K))) (good : Good A keep g)
    (hR : ∀ c v o, g c = .ok (v, o) → R c o) :
    Pixelwise s R (fun v => do let r ← pixelLoop s v (fun _ px => g px); .ok r.out) := by
  have many : ∀ cs : List (List (Flt K)), (∀ c ∈ cs, c.length = s) →
      (do let r ← pixelLoop s cs.flatten (fun _ px => g px); .ok r.out : Py _)
        = (do let ps ← cs.mapM g; .ok (ps.map Prod.snd).flatten) := by
    intro cs hc
    have := pixelLoop_chunks s hs g cs [] hc (by simpa) (by
      intro c hcm v o h
      obtain ⟨h1, h2⟩ := good.len _ _ _ h
      exact ⟨h1.trans (hc c hcm), h2.trans (hc c hcm)⟩)
    rw [List.append_nil] at this
    rw [this]
    cases cs.mapM g with
    | error e => rfl
    | ok ps => simp
  have one : ∀ c : List (Flt K), c.length = s →
      (do let r ← pixelLoop s c (fun _ px => g px); .ok r.out : Py _)
        = (do let p ← g c; .ok p.2) := by
    intro c hc
    have := many [c] (by simpa)
    simp only [List.flatten_cons, List.flatten_nil, List.append_nil] at this
    rw [this]
    cases h : g c with
    | error e => simp [h]
    | ok p => simp [h]
  refine ⟨?_, ?_, ?_⟩
  · intro c o hc h
    rw [one c hc] at h
    obtain ⟨⟨v, o'⟩, h1, h2⟩ := py_bind_eq_ok.mp h
    cases h2
    exact (good.len _ _ _ h1).2.trans hc
  · intro c o hc h
    rw [one c hc] at h
    obtain ⟨⟨v, o'⟩, h1, h2⟩ := py_bind_eq_ok.mp h
    cases h2
    exact hR _ _ _ h1
  · intro cs _ hc r
    simp only [many cs hc]
    have e : ∀ os, List.Forall₂ (fun c o => (do
        let r ← pixelLoop s c (fun _ px => g px); .ok r.out : Py _) = .ok o) cs os
        ↔ List.Forall₂ (fun c o => ∃ p, g c = .ok p ∧ p.2 = o) cs os := by
      intro os
      constructor
      · intro h
        refine (List.forall₂_and_left (p := fun c => c.length = s) cs os |>.mpr ⟨hc, h⟩).imp ?_
        rintro c o ⟨hcl, h⟩
        rw [one c hcl] at h
        obtain ⟨p, h1, h2⟩ := py_bind_eq_ok.mp h
        cases h2
        exact ⟨p, h1, rfl⟩
      · intro h
        refine (List.forall₂_and_left (p := fun c => c.length = s) cs os |>.mpr ⟨hc, h⟩).imp ?_
        rintro c o ⟨hcl, p, h1, rfl⟩
        rw [one c hcl, h1]; rfl
    constructor
    · intro h
      obtain ⟨ps, h1, h2⟩ := py_bind_eq_ok.mp h
      cases h2
      refine ⟨ps.map Prod.snd, (e _).mpr ?_, rfl⟩
      rw [List.forall₂_map_right_iff]
      exact (py_mapM_eq_ok.mp h1).imp fun c p h => ⟨p, h, rfl⟩
    · rintro ⟨os, h, rfl⟩
      obtain ⟨ps, h1, h2⟩ := forall₂_comp.mp ((e os).mp h)
      have : os = ps.map Prod.snd := by
        clear h h1
        induction h2 with
        | nil => rfl
        | cons h _ ih => rw [List.map_cons, ← h, ih]
      rw [py_mapM_eq_ok.mpr h1, this]; rfl

theorem fails_pixelwise (s : ℕ) (R : List (Flt K) → List (Flt K) → Prop) (e : PyErr) :
    Pixelwise s R fun _ => .error e := by
  refine ⟨fun _ _ _ h => (by cases h), fun _ _ _ h => (by cases h), ?_⟩
  intro cs hne _ r
  constructor
  · intro h; cases h
  · rintro ⟨os, h, _⟩
    cases h with
    | nil => exact (hne rfl).elim
    | cons h _ => cases h

theorem range_pixelwise (A : Arith K) (s : ℕ) (R : List (Flt K) → List (Flt K) → Prop)
    (hR : ∀ c o : List (Flt K), o.length = c.length → R c o) (b : Base K) :
    Pixelwise s R (fun v => do let r ← rangeProcess A b v; .ok r.out) := by
  rcases range_shape A b with ⟨e, he⟩ | ⟨f, hf, _⟩
  · simp only [he, py_error_bind]
    exact fails_pixelwise s R e
  · have : (fun v => do let r ← rangeProcess A b v; .ok r.out : _ → Py (List (Flt K)))
        = fun v => v.mapM f := by
      funext v; rw [hf]; cases v.mapM f <;> rfl
    rw [this]
    refine ⟨fun c o hc h => (py_mapM_length h).trans hc, fun c o _ h => hR _ _ (py_mapM_length h), ?_⟩
    intro cs _ _ r
    clear *-
    induction cs generalizing r with
    | nil =>
      constructor
      · intro h; cases h; exact ⟨[], .nil, rfl⟩
      · rintro ⟨os, h, rfl⟩; cases h; rfl
    | cons c cs ih =>
      rw [List.flatten_cons, py_mapM_append]
      constructor
      · intro h
        obtain ⟨a, h1, h⟩ := py_bind_eq_ok.mp h
        obtain ⟨b, h2, h⟩ := py_bind_eq_ok.mp h
        cases h
        obtain ⟨os, h3, rfl⟩ := (ih b).mp h2
        exact ⟨a :: os, .cons h1 h3, rfl⟩
      · rintro ⟨os, h, rfl⟩
        cases h with
        | cons h1 h2 =>
          rw [h1, (ih _).mpr ⟨_, h2, rfl⟩]; rfl

theorem ec_small (A : Arith K) (e c p : Flt K) (b : Base K) (s : ℕ) (hs : 0 < s) (hs3 : s ≤ 3) :
    (∃ err, ∀ v, ecProcess A e c p b v s = .error err) ∨
    ∃ g, (∀ v, ecProcess A e c p b v s = pixelLoop s v fun _ px => g px) ∧ Good A True g := by
  unfold ecProcess
  cases h1 : b.attrE "inBitDepth" with
  | error err => exact .inl ⟨err, fun v => rfl⟩
  | ok d1 =>
    cases h2 : b.attrE "outBitDepth" with
    | error err => exact .inl ⟨err, fun v => rfl⟩
    | ok d2 =>
      refine .inr ⟨fun px => do
        let o ← (do
          let px' ← ecChannels A (b.styleOf "style") e c p d1 d2 px
          .ok (px'.take 3 ++ px'.drop 3))
        pure (o, o), fun v => ?_, good_view ?_ ?_ ?_⟩
      · simp only [py_ok_bind]
        apply pixelLoop_congr s hs
        intro vals px hpx
        cases h : ecChannels A (b.styleOf "style") e c p d1 d2 px with
        | error err => rfl
        | ok px' =>
          have hl := (ecChannels_props h).1
          have h3 : px'.drop 3 = [] := by simp; omega
          have h4 : pySlice vals (min 3 px.length) px.length = [] := by
            rw [min_eq_right (by omega)]; simp [pySlice]
          simp only [py_ok_bind, h3, h4]
      · intro px o h
        obtain ⟨px', h1, h⟩ := py_bind_eq_ok.mp h
        cases h
        rw [List.take_append_drop]; exact (ecChannels_props h1).1
      · intro px o h
        obtain ⟨px', h1, h⟩ := py_bind_eq_ok.mp h
        cases h
        rw [List.take_append_drop]
        unfold ecChannels at h1
        split_ifs at h1
        · exact chanLoop_drop h1
        · exact chanLoop_drop h1
        · exact chanLoop_drop h1
        · cases h1; rfl
      · intro hA px o hpx h
        obtain ⟨px', h1, h⟩ := py_bind_eq_ok.mp h
        cases h
        rw [List.take_append_drop]; exact (ecChannels_props h1).2 hA hpx

theorem leaf_pixelwise (A : Arith K) (compat s : ℕ) (hs : 0 < s) (k : Kind K) (b : Base K)
    (hk : EcSmall s k) :
    Pixelwise s (fun _ _ => True) (fun v => do let r ← leafProcess A compat k b v s; .ok r.out) := by
  by_cases hp : k.perPixel
  · rcases leaf_shape A compat k b s hs hp with ⟨e, he⟩ | hi | ⟨g, hg, good⟩
    · simp only [he, py_error_bind]; exact fails_pixelwise s _ e
    · simp only [hi, py_ok_bind]
      exact (closed_pixelwise A s _ (fun _ => trivial) (fun _ _ _ _ _ => trivial)
        (fun _ => trivial)).ident
    · simp only [hg]
      exact pixelLoop_pixelwise s hs _ g good fun _ _ _ _ => trivial
  · cases k with
    | range => exact range_pixelwise A s _ (fun _ _ _ => trivial) b
    | exposureContrast e c p =>
      simp only [leafProcess]
      rcases ec_small A e c p b s hs hk with ⟨err, he⟩ | ⟨g, hg, good⟩
      · simp only [he, py_error_bind]; exact fails_pixelwise s _ err
      · simp only [hg]
        exact pixelLoop_pixelwise s hs _ g good fun _ _ _ _ => trivial
    | _ => exact (hp trivial).elim


/-- Channels after the third are kept, on storable values. -/
def KeepsTail (A : Arith K) (c o : List (Flt K)) : Prop :=
  Stored A c → o.drop 3 = c.drop 3 ∧ Stored A o

theorem closed_tail (A : Arith K) (s : ℕ) : Closed A (Pixelwise s (KeepsTail A)) :=
  closed_pixelwise A s _ (fun _ h => ⟨rfl, h⟩)
    (fun _ _ _ h1 h2 h => by
      obtain ⟨e1, s1⟩ := h1 h
      obtain ⟨e2, s2⟩ := h2 s1
      exact ⟨e2.trans e1, s2⟩)
    (fun c h => by rw [map_stored h]; exact ⟨rfl, h⟩)

theorem leaf_tail (A : Arith K) (hA : Casts A) (compat s : ℕ) (hs : 0 < s) (k : Kind K) (b : Base K)
    (hk : KeepsExtra k b) :
    Pixelwise s (KeepsTail A) (fun v => do let r ← leafProcess A compat k b v s; .ok r.out) := by
  have hp : k.perPixel := by
    cases k <;> first | exact hk.elim | trivial
  rcases leaf_shape A compat k b s hs hp with ⟨e, he⟩ | hi | ⟨g, hg, good⟩
  · simp only [he, py_error_bind]; exact fails_pixelwise s _ e
  · simp only [hi, py_ok_bind]
    exact (closed_tail A s).ident
  · simp only [hg]
    refine pixelLoop_pixelwise s hs _ g good fun c v o h hc => ⟨good.extra ?_ _ _ _ h, ?_⟩
    · intro hm
      cases k <;> first | exact hm.elim | exact hk
    · exact (good.stored hA _ _ _ hc h).2

/-! ### Lists without bypass -/

theorem runOut_plain (A : Arith K) (compat stride : ℕ) (g : Bool) (ns : List (Node K))
    (h : ∀ n ∈ ns, n.attr "bypass" = none) (prev : Option Depth) (v : List (Flt K)) :
    runOut A compat stride g prev ns v = ns.foldlM (fun v n => n.outOf A compat stride v) v := by
  induction ns generalizing prev v with
  | nil => rfl
  | cons n rest ih =>
    have : stepOut A compat stride g prev n rest v = n.outOf A compat stride v := by
      unfold stepOut; rw [h n (by simp)]; simp
    rw [runOut, this, List.foldlM_cons]
    congr 1
    funext w
    exact ih (fun m hm => h m (by simp [hm])) _ w

theorem mem_inlineAll {m : Node K} {ns : List (Node K)} (h : m ∈ Spec.inlineAll ns) :
    ∃ n ∈ ns, m ∈ Spec.inline n := by
  induction ns with
  | nil => simp [Spec.inlineAll] at h
  | cons n ns ih =>
    rw [Spec.inlineAll, List.mem_append] at h
    rcases h with h | h
    · exact ⟨n, by simp, h⟩
    · obtain ⟨k, hk, hm⟩ := ih h
      exact ⟨k, by simp [hk], hm⟩

theorem inline_plain (n : Node K) : (∀ m, Within m n → m.attr "bypass" = none) →
    ∀ m ∈ Spec.inline n, m.attr "bypass" = none := by
  induction n using Node.ind with
  | hleaf k b =>
    intro h m hm
    simp only [Spec.inline, List.mem_singleton] at hm
    subst hm; exact h _ .self
  | hgroup b cs ih =>
    intro h m hm
    rw [Spec.inline] at hm
    obtain ⟨c, hc, hm⟩ := mem_inlineAll hm
    exact ih c hc (fun m hm => h m (.group hc hm)) m hm
  | href b w ns ih =>
    intro h m hm
    simp only [Spec.inline, List.mem_singleton] at hm
    subst hm; exact h (.ref b w ns) .self
  | hmiss b w =>
    intro h m hm
    simp only [Spec.inline, List.mem_singleton] at hm
    subst hm; exact h _ .self

theorem inlineAll_foldlM (A : Arith K) (compat stride : ℕ) (ns : List (Node K))
    (ih : ∀ n ∈ ns, ∀ v, n.outOf A compat stride v
      = (Spec.inline n).foldlM (fun v n => n.outOf A compat stride v) v) (v : List (Flt K)) :
    ns.foldlM (fun v n => n.outOf A compat stride v) v
      = (Spec.inlineAll ns).foldlM (fun v n => n.outOf A compat stride v) v := by
  induction ns generalizing v with
  | nil => rfl
  | cons n ns ih2 =>
    rw [List.foldlM_cons, Spec.inlineAll, List.foldlM_append, ih n (by simp)]
    congr 1
    funext w
    exact ih2 (fun m hm => ih m (by simp [hm])) w

theorem foldlM_single {α β : Type} (f : β → α → Py β) (a : α) (b : β) :
    [a].foldlM f b = f b a := by
  rw [List.foldlM_cons]
  cases f b a <;> rfl

theorem inline_outOf (A : Arith K) (compat stride : ℕ) (n : Node K) :
    (∀ m, Within m n → m.attr "bypass" = none) → ∀ v, n.outOf A compat stride v
      = (Spec.inline n).foldlM (fun v n => n.outOf A compat stride v) v := by
  induction n using Node.ind with
  | hleaf k b => intro _ v; rw [Spec.inline, foldlM_single]
  | hgroup b cs ih =>
    intro h v
    rw [outOf_group, Spec.inline, runOut_plain _ _ _ _ _ (fun n hn => h n (.group hn .self))]
    exact inlineAll_foldlM A compat stride cs
      (fun n hn => ih n hn fun m hm => h m (.group hn hm)) v
  | href b w ns ih =>
    intro h v
    rw [Spec.inline, foldlM_single, outOf_ref, outOf_ref,
      runOut_plain _ _ _ _ _ (fun n hn => h n (.ref hn .self)), runOut_plain]
    · exact inlineAll_foldlM A compat stride ns
        (fun n hn => ih n hn fun m hm => h m (.ref hn hm)) _
    · intro m hm
      obtain ⟨c, hc, hm⟩ := mem_inlineAll hm
      exact inline_plain c (fun m hm => h m (.ref hc hm)) m hm
  | hmiss b w => intro _ v; rw [Spec.inline, foldlM_single]

/-! ### Joining two lists -/

theorem stepOut_plain {A : Arith K} {compat stride : ℕ} {g : Bool} {n : Node K}
    (h : n.attr "bypass" = none ∨ (g = false ∧ hasFeature compat autodesk = false))
    (prev : Option Depth) (rest : List (Node K)) (v : List (Flt K)) :
    stepOut A compat stride g prev n rest v = n.outOf A compat stride v := by
  unfold stepOut
  rcases h with h | ⟨h1, h2⟩
  · rw [h]; simp
  · rw [h1, h2]; simp

theorem runOut_head (A : Arith K) (compat stride : ℕ) (ms : List (Node K))
    (h : hasFeature compat autodesk = false ∨ ∀ m, ms.head? = some m → m.attr "bypass" = none)
    (prev prev' : Option Depth) (v : List (Flt K)) :
    runOut A compat stride false prev ms v = runOut A compat stride false prev' ms v := by
  cases ms with
  | nil => rfl
  | cons m rest =>
    have hm : m.attr "bypass" = none ∨ (false = false ∧ hasFeature compat autodesk = false) :=
      h.elim (fun h => .inr ⟨rfl, h⟩) fun h => .inl (h m rfl)
    rw [runOut, runOut, stepOut_plain hm, stepOut_plain hm]

theorem runOut_append (A : Arith K) (compat stride : ℕ) (ns ms : List (Node K))
    (h : Spec.SeamFree compat ns ms) : ∀ (prev : Option Depth) (v : List (Flt K)),
    runOut A compat stride false prev (ns ++ ms) v
      = (do let w ← runOut A compat stride false prev ns v
            runOut A compat stride false none ms w) := by
  induction ns with
  | nil =>
    intro prev v
    exact runOut_head A compat stride ms (h.imp id fun h => h.2) prev none v
  | cons n rest ih =>
    intro prev v
    have hs : stepOut A compat stride false prev n (rest ++ ms) v
        = stepOut A compat stride false prev n rest v := by
      cases rest with
      | nil =>
        have hm : n.attr "bypass" = none ∨ (false = false ∧ hasFeature compat autodesk = false) :=
          h.elim (fun h => .inr ⟨rfl, h⟩) fun h => .inl (h.1 n rfl)
        rw [stepOut_plain hm, stepOut_plain hm]
      | cons m rest => cases prev <;> rfl
    rw [List.cons_append, runOut, runOut, hs]
    cases stepOut A compat stride false prev n rest v with
    | error e => rfl
    | ok w =>
      simp only [py_ok_bind]
      refine ih ?_ _ w
      refine h.imp id fun h => ⟨fun k hk => h.1 k ?_, h.2⟩
      rw [List.getLast?_cons, hk]; rfl

theorem runOut_stored (A : Arith K) (hA : Casts A) (compat stride : ℕ) (g : Bool)
    (prev : Option Depth) (ns : List (Node K)) (v w : List (Flt K)) (hv : Stored A v)
    (h : runOut A compat stride g prev ns v = .ok w) : Stored A w :=
  runOut_closed (closed_stored A hA) compat stride g ns
    (fun n _ => outOf_closed (closed_stored A hA) compat stride (fun _ _ => True)
      (fun k b _ => leaf_stored A hA compat stride k b) False
      (.inr fun d1 d2 => leaf_stored A hA 0 0 .range (adapterBase d1 d2)) n
      (fun _ _ => ⟨fun h => h.elim, fun _ _ _ => trivial⟩))
    (.inr fun d1 d2 => leaf_stored A hA 0 0 .range (adapterBase d1 d2)) prev v w hv h

end CLF
