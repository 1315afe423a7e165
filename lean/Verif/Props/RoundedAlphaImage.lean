import Verif.Props.RoundedAlpha
import Verif.Props.RoundedImage

/-! # C151: images with further channels -/

set_option linter.unusedSectionVars false

namespace CLF

variable {K : Type} [Field K] [LinearOrder K] [IsStrictOrderedRing K] [FloorRing K]

/-- The first three of every `s` samples. -/
def Spec.thin (s : ℕ) : Samples K → Samples K
  | .ints l => .ints (Spec.coloursOf s l)
  | .floats l => .floats (Spec.coloursOf s l)

/-- An image of the first three channels of an image. -/
def Spec.withoutAlpha (img : Image K) : Image K := { img with channels := 3, data := Spec.thin img.channels img.data }

/-! ## Samples one by one -/

theorem mapM_append {α β : Type} (f : α → Py β) (a b : List α) : (a ++ b).mapM f = (do let x ← a.mapM f; let y ← b.mapM f; .ok (x ++ y)) := by
  induction a with
  | nil => simp only [List.nil_append, List.mapM_nil, py_pure, py_ok_bind]; cases b.mapM f <;> rfl
  | cons x a ih =>
    rw [List.cons_append, py_mapM_cons, py_mapM_cons, ih]
    cases f x with
    | error => rfl
    | ok y => cases a.mapM f <;> [rfl; skip]; cases b.mapM f <;> rfl

theorem mapM_pixels {α β : Type} (f : α → Py β) {s : ℕ} (hs : 3 ≤ s) : ∀ (pixels : List (List α)) (r : List β), (∀ p ∈ pixels, p.length = s) →
    pixels.flatten.mapM f = .ok r → ∃ outs : List (List β), r = outs.flatten ∧ outs.length = pixels.length ∧ (∀ p ∈ outs, p.length = s) ∧
      (pixels.map (·.take 3)).flatten.mapM f = .ok (outs.map (·.take 3)).flatten
  | [], r, _, h => by
    cases h
    exact ⟨[], rfl, rfl, by simp, rfl⟩
  | p :: ps, r, hp, h => by
    rw [List.flatten_cons, mapM_append] at h
    obtain ⟨a, ha, h⟩ := py_bind_eq_ok.mp h
    obtain ⟨b, hb, h⟩ := py_bind_eq_ok.mp h
    cases h
    obtain ⟨outs, rfl, k1, k2, k3⟩ := mapM_pixels f hs ps b (fun q hq => hp q (by simp [hq])) hb
    have hl := hp p (by simp)
    have hal : a.length = s := by rw [py_mapM_length ha, hl]
    refine ⟨a :: outs, rfl, by simp [k1], by simpa [hal] using k2, ?_⟩
    rw [List.map_cons, List.flatten_cons, mapM_append, k3]
    have : (p.take 3).mapM f = .ok (a.take 3) := by
      rw [← List.take_append_drop 3 p, mapM_append] at ha
      obtain ⟨x, hx, ha⟩ := py_bind_eq_ok.mp ha
      obtain ⟨y, hy, ha⟩ := py_bind_eq_ok.mp ha
      cases ha
      have : x.length = 3 := by rw [py_mapM_length hx, List.length_take, hl]; omega
      rw [hx, List.take_left' this]
    rw [this]
    rfl

theorem mapM_colours {α β : Type} (f : α → Py β) {s : ℕ} (hs : 3 ≤ s) {l : List α} {r : List β} (hl : s ∣ l.length) (h : l.mapM f = .ok r) :
    (Spec.coloursOf s l).mapM f = .ok (Spec.coloursOf s r) := by
  obtain ⟨pixels, rfl, hp⟩ := whole_pixels (by omega) hl
  obtain ⟨outs, rfl, -, k2, k3⟩ := mapM_pixels f hs pixels r hp h
  rw [coloursOf_flatten hs _ hp, coloursOf_flatten hs _ k2, k3]

theorem map_colours {α β : Type} (f : α → β) {s : ℕ} (hs : 3 ≤ s) {l : List α} (hl : s ∣ l.length) : (Spec.coloursOf s l).map f = Spec.coloursOf s (l.map f) := by
  have := mapM_colours (fun x => .ok (f x)) hs hl (py_mapM_ok _ f l fun _ _ => rfl)
  rw [py_mapM_ok _ f _ fun _ _ => rfl] at this
  exact Except.ok.inj this

/-! ## Reading and writing -/

theorem read_thin {img : Image K} {p : PixelArray K} (hs : 3 ≤ img.channels) (hl : img.channels ∣ img.data.length) (h : readPixelArray (some img) = .ok p) :
    readPixelArray (some (Spec.withoutAlpha img)) = .ok ⟨Spec.thin img.channels p.data, p.depth, Spec.withoutAlpha img⟩ := by
  obtain ⟨type, width, height, channels, bits, data⟩ := img
  simp only at hs hl
  unfold readPixelArray Spec.withoutAlpha at *
  simp only at h ⊢
  cases ht : typeDepth type with
  | error e => rw [ht] at h; cases h
  | ok d =>
    rw [ht] at h
    simp only [py_ok_bind] at h ⊢
    cases bits with
    | none => cases h; rfl
    | some n =>
      cases type <;> cases data <;> simp only [Spec.thin] at h ⊢ <;> try (cases h; rfl)
      next l =>
        split_ifs at h ⊢ <;> first
          | (cases h; rfl)
          | (obtain ⟨l', hl', h⟩ := py_bind_eq_ok.mp h
             cases h
             rw [mapM_colours _ hs hl hl']
             rfl)

theorem write_thin {v : List (Flt K)} {d : AVal} {img out : Image K} (hs : 3 ≤ img.channels) (hl : img.channels ∣ v.length) (h : writePixelArray v d img = .ok out) :
    writePixelArray (Spec.coloursOf img.channels v) d (Spec.withoutAlpha img) = .ok (Spec.withoutAlpha out) := by
  unfold writePixelArray at *
  obtain ⟨type, ht, h⟩ := py_bind_eq_ok.mp h
  rw [ht]
  obtain ⟨ty, width, height, channels, bits, data⟩ := img
  simp only [py_ok_bind, Spec.withoutAlpha] at h hs hl ⊢
  cases type <;> simp only [reduceCtorEq, or_self, or_true, true_or, if_true, if_false, pure_bind] at h ⊢
  case uint8 =>
    obtain ⟨l, hl', h⟩ := py_bind_eq_ok.mp h
    rw [mapM_colours _ hs hl hl']
    cases bits <;> (obtain ⟨n, hn, h⟩ := py_bind_eq_ok.mp h; cases h; simp only [py_ok_bind, hn]; rfl)
  case uint16 =>
    obtain ⟨l, hl', h⟩ := py_bind_eq_ok.mp h
    rw [mapM_colours _ hs hl hl']
    cases bits <;> (obtain ⟨n, hn, h⟩ := py_bind_eq_ok.mp h; cases h; simp only [py_ok_bind, hn]; rfl)
  case half =>
    rw [map_colours _ hs hl]
    cases bits
    · cases h; rfl
    · obtain ⟨n, hn, h⟩ := py_bind_eq_ok.mp h; cases h; simp only [hn]; rfl
  all_goals
    cases bits
    · cases h; rfl
    · obtain ⟨n, hn, h⟩ := py_bind_eq_ok.mp h; cases h; simp only [hn]; rfl

/-! ## Rows -/

/-- Two arrays that fail alike, or one of which shows the colours of the other. -/
def Alike (s n : ℕ) (x y : Py (List (Flt K))) : Prop :=
  (∃ e, x = .error e ∧ y = .error e) ∨
  ∃ outs : List (List (Flt K)), outs.length = n ∧ (∀ p ∈ outs, p.length = s) ∧ x = .ok outs.flatten ∧ y = .ok (outs.map (·.take 3)).flatten

theorem Alike.bind {s n : ℕ} {x y : Py (List (Flt K))} {f g : List (Flt K) → Py (List (Flt K))} (h : Alike s n x y)
    (hf : ∀ outs : List (List (Flt K)), outs.length = n → (∀ p ∈ outs, p.length = s) → Alike s n (f outs.flatten) (g (outs.map (·.take 3)).flatten)) :
    Alike s n (x >>= f) (y >>= g) := by
  rcases h with ⟨e, rfl, rfl⟩ | ⟨outs, h1, h2, rfl, rfl⟩
  · exact .inl ⟨e, rfl, rfl⟩
  · exact hf outs h1 h2

theorem optRange_alike (R : Rounding K) (r : Option (Base K)) {s : ℕ} (hs : 3 ≤ s) (pixels : List (List (Flt K))) (hp : ∀ p ∈ pixels, p.length = s) :
    Alike s pixels.length (optRangeR R r pixels.flatten) (optRangeR R r (pixels.map (·.take 3)).flatten) := by
  unfold optRangeR
  cases r with
  | none => exact .inr ⟨pixels, rfl, hp, rfl, rfl⟩
  | some b =>
    rcases range_agree R b hs pixels hp with ⟨e, h1, h2⟩ | ⟨outs, q, q', h1, h2, h3, h4, h5, h6, -⟩
    · exact .inl ⟨e, by simp only [h1]; rfl, by simp only [h2]; rfl⟩
    · exact .inr ⟨outs, h1, h2, by simp only [h3, py_ok_bind, h5]; rfl, by simp only [h4, py_ok_bind, h6]; rfl⟩

theorem filterValues_alike (E : Evaluator K) (compat : ℕ) (j j' : Job K) (hi : j'.inRange = j.inRange) (ho : j'.outRange = j.outRange) (hn : j'.nodes = j.nodes)
    (hns : ∀ n ∈ j.nodes, Spec.Colours n) {s : ℕ} (hs : 3 ≤ s) (pixels : List (List (Flt K))) (hp : ∀ p ∈ pixels, p.length = s) :
    Alike s pixels.length (filterValuesR E compat j s pixels.flatten) (filterValuesR E compat j' 3 (pixels.map (·.take 3)).flatten) := by
  unfold filterValuesR
  rw [hi, ho, hn]
  refine (optRange_alike _ _ hs pixels hp).bind fun ps hl hps => ?_
  rw [← hl]
  have : Alike s ps.length (processListR E compat j.nodes ps.flatten s) (processListR E compat j.nodes (ps.map (·.take 3)).flatten 3) := by
    rcases list_agree E compat j.nodes hns hs ps hps with h | ⟨outs, k1, k2, k3, k4, -⟩
    · exact .inl h
    · exact .inr ⟨outs, k1, k2, k3, k4⟩
  refine this.bind fun qs hl' hqs => ?_
  rw [← hl']
  exact optRange_alike _ _ hs qs hqs

theorem flatten_drop {α : Type} {s : ℕ} : ∀ (pixels : List (List α)) (_ : ∀ p ∈ pixels, p.length = s) (k : ℕ), pixels.flatten.drop (k * s) = (pixels.drop k).flatten
  | [], _, k => by simp
  | p :: ps, hp, 0 => by simp
  | p :: ps, hp, k + 1 => by
    rw [List.flatten_cons, Nat.succ_mul, Nat.add_comm, List.drop_succ_cons, ← flatten_drop ps (fun q hq => hp q (by simp [hq])) k,
      ← hp p (by simp), ← List.drop_drop, List.drop_left]

theorem flatten_take {α : Type} {s : ℕ} : ∀ (pixels : List (List α)) (_ : ∀ p ∈ pixels, p.length = s) (k : ℕ), pixels.flatten.take (k * s) = (pixels.take k).flatten
  | [], _, k => by simp
  | p :: ps, hp, 0 => by simp
  | p :: ps, hp, k + 1 => by
    rw [List.flatten_cons, Nat.succ_mul, Nat.add_comm, List.take_succ_cons, List.flatten_cons, ← flatten_take ps (fun q hq => hp q (by simp [hq])) k,
      ← hp p (by simp), List.take_length_add_append]

theorem pixels_slice {α : Type} {s : ℕ} (pixels : List (List α)) (hp : ∀ p ∈ pixels, p.length = s) (r w : ℕ) :
    pySlice pixels.flatten (r * w * s) (r * w * s + w * s) = (pySlice pixels (r * w) (r * w + w)).flatten := by
  unfold pySlice
  rw [Nat.add_sub_cancel_left, Nat.add_sub_cancel_left, flatten_drop pixels hp, flatten_take _ fun q hq => hp q (List.mem_of_mem_drop hq)]

/-- The row of an image, and the row of its colours. -/
theorem slice_thin (A : Arith K) (d : Samples K) {s : ℕ} (hs : 3 ≤ s) (hl : s ∣ d.length) (r w : ℕ) (hr : (r * w + w) * s ≤ d.length) :
    ∃ pixels : List (List (Flt K)), pixels.length = w ∧ (∀ p ∈ pixels, p.length = s) ∧ d.slice A (r * w * s) (r * w * s + w * s) = pixels.flatten ∧
      (Spec.thin s d).slice A (r * w * 3) (r * w * 3 + w * 3) = (pixels.map (·.take 3)).flatten := by
  have key : ∀ {α : Type} (f : α → Flt K) (l : List α), s ∣ l.length → (r * w + w) * s ≤ l.length →
      ∃ pixels : List (List (Flt K)), pixels.length = w ∧ (∀ p ∈ pixels, p.length = s) ∧ (pySlice l (r * w * s) (r * w * s + w * s)).map f = pixels.flatten ∧
        (pySlice (Spec.coloursOf s l) (r * w * 3) (r * w * 3 + w * 3)).map f = (pixels.map (·.take 3)).flatten := by
    intro α f l hl hr
    obtain ⟨ps, rfl, hp⟩ := whole_pixels (by omega) hl
    have hp3 : ∀ p ∈ ps.map (·.take 3), p.length = 3 := by
      intro p hpm
      obtain ⟨q, hq, rfl⟩ := List.mem_map.mp hpm
      rw [List.length_take, hp q hq]; omega
    rw [coloursOf_flatten hs ps hp, pixels_slice ps hp, pixels_slice _ hp3]
    have hsub : ∀ q ∈ pySlice ps (r * w) (r * w + w), q ∈ ps := fun q hq => List.mem_of_mem_drop (List.mem_of_mem_take hq)
    refine ⟨(pySlice ps (r * w) (r * w + w)).map (·.map f), ?_, ?_, ?_, ?_⟩
    · rw [flatten_length hp] at hr
      have := Nat.le_of_mul_le_mul_right hr (by omega)
      simp only [List.length_map, pySlice, List.length_take, List.length_drop]
      omega
    · intro p hpm
      obtain ⟨q, hq, rfl⟩ := List.mem_map.mp hpm
      rw [List.length_map, hp q (hsub q hq)]
    · rw [List.map_flatten]
    · rw [List.map_flatten]
      congr 1
      simp [pySlice, List.map_take, List.map_drop, Function.comp_def]
  cases d with
  | ints l => exact key _ l hl hr
  | floats l => exact key _ l hl hr

/-! ## The copy -/

theorem foldlM_visits {σ α : Type} {f : σ → α → Py σ} : ∀ {l : List α} {a b : σ}, l.foldlM f a = .ok b → ∀ x ∈ l, ∃ a' b', f a' x = .ok b'
  | [], _, _, _, x, hx => by simp at hx
  | y :: l, a, b, h, x, hx => by
    rw [List.foldlM_cons] at h
    obtain ⟨c, hc, h⟩ := py_bind_eq_ok.mp h
    rcases List.mem_cons.mp hx with rfl | hx
    · exact ⟨a, c, hc⟩
    · exact foldlM_visits h x hx

/-- If the copy succeeds, no row is missing. -/
theorem copyRows_all {A : Arith K} {j : Job K} {c : ℕ → Option (List (Flt K))} {a b : List (Flt K)} (hm : 0 < j.width * j.channels)
    (h : copyRows A j ((List.range j.height).map c) a = .ok b) (i : ℕ) (hi : i < j.height) : ∃ v, c i = some v := by
  unfold copyRows at h
  obtain ⟨a', b', h'⟩ := foldlM_visits h i (List.mem_range.mpr hi)
  obtain ⟨a'', b'', h''⟩ := foldlM_visits h' 0 (List.mem_range.mpr hm)
  simp only [pyGet, List.getElem?_map, List.getElem?_range hi, Option.map_some, py_ok_bind] at h''
  cases hc : c i with
  | none => rw [hc] at h''; cases h''
  | some v => exact ⟨v, rfl⟩

/-! ## Images -/

/-- C151: an image with further channels, filtered by worker processes, shows the colours that filtering the colours alone gives. -/
theorem C151_image (E : Evaluator K) (compat : ℕ) (img out : Image K) (ns : List (Node K)) (hns : ∀ n ∈ ns, Spec.Colours n) (outBitDepth : Option AVal)
    (workers : ℕ) (hw : 1 < workers) (schedule : List ℕ) (hf : Spec.Finished workers img.height schedule) (hs : 3 ≤ img.channels) (hwd : 0 < img.width)
    (hz : Spec.Sized img) (h : filterImageR E compat (some img) ns outBitDepth workers schedule = .ok (some out)) :
    filterImageR E compat (some (Spec.withoutAlpha img)) ns outBitDepth workers schedule = .ok (some (Spec.withoutAlpha out)) := by
  unfold filterImageR at h ⊢
  obtain ⟨p, hr, h⟩ := py_bind_eq_ok.mp h
  obtain ⟨hi, hlen⟩ := read_image hr
  have hdvd : img.channels ∣ img.data.length := by rw [hz]; exact Dvd.intro_left _ rfl
  have hr' := read_thin hs hdvd hr
  rw [hr']
  simp only [py_ok_bind, if_pos hw] at h ⊢
  obtain ⟨e1, e2, e3, e4⟩ := filterJob_size (ns := ns) (outBitDepth := outBitDepth) hi
  set j := (filterJob ns p outBitDepth).2 with hj
  set j' := (filterJob ns (⟨Spec.thin img.channels p.data, p.depth, Spec.withoutAlpha img⟩ : PixelArray K) outBitDepth).2 with hj'
  have d1 : j'.data = Spec.thin img.channels p.data := rfl
  have d2 : j'.width = img.width := rfl
  have d3 : j'.height = img.height := rfl
  have d4 : j'.channels = 3 := rfl
  have hrow : ∀ r < img.height, ∃ pixels : List (List (Flt K)), pixels.length = img.width ∧ (∀ q ∈ pixels, q.length = img.channels) ∧
      j.data.slice E.arith (r * j.width * j.channels) (r * j.width * j.channels + j.width * j.channels) = pixels.flatten ∧
      j'.data.slice E.arith (r * j'.width * j'.channels) (r * j'.width * j'.channels + j'.width * j'.channels) = (pixels.map (·.take 3)).flatten := by
    intro r hr
    rw [e1, e2, e4, d1, d2, d4]
    refine slice_thin E.arith p.data hs (by rw [hlen]; exact hdvd) r img.width ?_
    rw [hlen, hz]
    refine Nat.mul_le_mul_right _ ?_
    rw [← Nat.succ_mul, Nat.mul_comm]
    exact Nat.mul_le_mul_left _ hr
  rw [(poolMap_finished (filterRowCaughtR E compat j) _ workers schedule).1 (by simpa [e3] using hf), List.map_map] at h
  rw [(poolMap_finished (filterRowCaughtR E compat j') _ workers schedule).1 (by simpa [d3] using hf), List.map_map]
  simp only at h ⊢
  cases hcp : copyRows E.arith j ((List.range j.height).map (filterRowCaughtR E compat j ∘ fun x =>
      j.data.slice E.arith (x * j.width * j.channels) (x * j.width * j.channels + j.width * j.channels)))
      (List.replicate (j.width * j.height * j.channels) (Flt.fin (0 : K))) with
  | error e => rw [hcp] at h; cases h
  | ok v =>
    rw [hcp] at h
    obtain ⟨o, ho, h⟩ := py_bind_eq_ok.mp h
    cases h
    have hall := copyRows_all (by rw [e2, e4]; positivity) hcp
    have rows : ∀ r, ∃ outs : List (List (Flt K)), r < img.height → outs.length = img.width ∧ (∀ q ∈ outs, q.length = img.channels) ∧
        (filterRowCaughtR E compat j ∘ fun x => j.data.slice E.arith (x * j.width * j.channels) (x * j.width * j.channels + j.width * j.channels)) r
          = some outs.flatten ∧
        (filterRowCaughtR E compat j' ∘ fun x => j'.data.slice E.arith (x * j'.width * j'.channels) (x * j'.width * j'.channels + j'.width * j'.channels)) r
          = some (outs.map (·.take 3)).flatten := by
      intro r
      by_cases hr : r < img.height
      swap
      · exact ⟨[], fun h => absurd h hr⟩
      obtain ⟨pixels, k1, k2, k3, k4⟩ := hrow r hr
      obtain ⟨w, hw⟩ := hall r (by rw [e3]; exact hr)
      simp only [Function.comp_apply] at hw ⊢
      rw [k3] at hw ⊢
      rw [k4]
      unfold filterRowCaughtR at hw ⊢
      rw [d3]
      rw [e3] at hw ⊢
      cases hpr : progress img.height with
      | error e => rw [hpr] at hw; cases hw
      | ok u =>
        rw [hpr] at hw
        simp only [py_ok_bind] at hw ⊢
        rw [e4] at hw ⊢
        rw [d4]
        rcases filterValues_alike E compat j j' rfl rfl rfl hns hs pixels k2 with ⟨e, a1, a2⟩ | ⟨outs, a1, a2, a3, a4⟩
        · rw [a1] at hw; cases hw
        · exact ⟨outs, fun _ => ⟨a1.trans k1, a2, by rw [a3], by rw [a4]⟩⟩
    choose q hq using rows
    have c1 : (List.range j.height).map (filterRowCaughtR E compat j ∘ fun x =>
        j.data.slice E.arith (x * j.width * j.channels) (x * j.width * j.channels + j.width * j.channels)) = (List.range j.height).map fun r => some (q r).flatten :=
      List.map_congr_left fun r hr => (hq r (by rw [← e3]; exact List.mem_range.mp hr)).2.2.1
    have c2 : (List.range j'.height).map (filterRowCaughtR E compat j' ∘ fun x =>
        j'.data.slice E.arith (x * j'.width * j'.channels) (x * j'.width * j'.channels + j'.width * j'.channels))
        = (List.range j'.height).map fun r => some ((q r).map (·.take 3)).flatten :=
      List.map_congr_left fun r hr => (hq r (List.mem_range.mp hr)).2.2.2
    have hq3 : ∀ r < img.height, ∀ x ∈ (q r).map (·.take 3), x.length = 3 := fun r hr => take3_length hs (hq r hr).2.1
    rw [c1, copyRows_some E.arith j (fun r => (q r).flatten) (fun r hr => by
      rw [e3] at hr
      rw [flatten_length (hq r hr).2.1, (hq r hr).1, e2, e4])] at hcp
    rw [c2, copyRows_some E.arith j' (fun r => ((q r).map (·.take 3)).flatten) (fun r hr => by
      rw [flatten_length (hq3 r hr), List.length_map, (hq r hr).1]
      rfl)]
    have hv := Except.ok.inj hcp
    have hP : ∀ x ∈ ((List.range img.height).map q).flatten, x.length = img.channels := by
      intro x hx
      obtain ⟨l, hl, hx⟩ := List.mem_flatten.mp hx
      obtain ⟨r, hr, rfl⟩ := List.mem_map.mp hl
      exact (hq r (List.mem_range.mp hr)).2.1 x hx
    have f1 : v = (((List.range img.height).map q).flatten.flatten).map E.arith.f32 := by
      rw [← hv, e3]
      congr 1
      rw [List.flatten_flatten, List.map_map]
      rfl
    have hvl : img.channels ∣ (((List.range img.height).map q).flatten.flatten).length := by
      rw [flatten_length hP]
      exact Dvd.intro_left _ rfl
    have f2 : (((List.range j'.height).map fun r => ((q r).map (·.take 3)).flatten).flatten).map E.arith.f32 = Spec.coloursOf img.channels v := by
      rw [f1, ← map_colours _ hs hvl, coloursOf_flatten hs _ hP]
      congr 1
      rw [List.map_flatten, List.flatten_flatten, List.map_map, List.map_map]
      rfl
    simp only
    rw [f2]
    have hd : (filterJob ns (⟨Spec.thin img.channels p.data, p.depth, Spec.withoutAlpha img⟩ : PixelArray K) outBitDepth).1 = (filterJob ns p outBitDepth).1 := rfl
    rw [hd]
    rw [hi] at ho
    have := write_thin hs (by rw [f1, List.length_map]; exact hvl) ho
    rw [this]
    rfl

/-! ## An example -/

/-- A ten bit picture of two rows with alpha. -/
def tenWithAlpha (a b : ℕ) : Image ℚ := ⟨.uint16, 1, 2, 4, some 10, .ints [64, 640, 6400, a, 0, 128, 12800, b]⟩

theorem tenWithAlpha_thin (a b : ℕ) : Spec.withoutAlpha (tenWithAlpha a b) = ⟨.uint16, 1, 2, 3, some 10, .ints [64, 640, 6400, 0, 128, 12800]⟩ := by
  simp [Spec.withoutAlpha, Spec.thin, tenWithAlpha, Spec.coloursOf, List.range_succ]

/-- Through a group and a Matrix: what comes out has the colours that come out of the picture without alpha. -/
example (a b : ℕ) (out : Image ℚ) (h : filterImageR ⟨ieee, fun _ => single, ratArith⟩ autodesk (some (tenWithAlpha a b)) mixedList none 2 [0, 1, 0, 1] = .ok (some out)) :
    filterImageR ⟨ieee, fun _ => single, ratArith⟩ autodesk (some ⟨.uint16, 1, 2, 3, some 10, .ints [64, 640, 6400, 0, 128, 12800]⟩) mixedList none 2 [0, 1, 0, 1]
      = .ok (some (Spec.withoutAlpha out)) := by
  rw [← tenWithAlpha_thin a b]
  exact C151_image _ _ (tenWithAlpha a b) out _ mixed_colours none 2 (by norm_num) [0, 1, 0, 1] (show Spec.Finished 2 2 [0, 1, 0, 1] by unfold Spec.Finished; decide)
    (show 3 ≤ 4 by norm_num) (show 0 < 1 by norm_num) rfl h

example : ∃ out, filterImageR ⟨ieee, fun _ => single, ratArith⟩ autodesk (some (tenWithAlpha 6400 32000)) mixedList none 2 [0, 1, 0, 1] = .ok (some out) :=
  ⟨⟨.uint16, 1, 2, 4, some 10, .ints [0, 1152, 12672, 6336, 65408, 128, 25472, 31936]⟩, by decide +kernel⟩

end CLF
