import Verif.Lemmas.Flt

/-! Lemmas about the channel and pixel loops. -/

set_option linter.unusedSectionVars false

namespace CLF

variable {K : Type} [Field K] [LinearOrder K] [IsStrictOrderedRing K] [FloorRing K]

theorem py_mapM_nil {α β : Type} (f : α → Py β) : [].mapM f = (.ok [] : Py (List β)) := rfl

theorem py_mapM_cons {α β : Type} (f : α → Py β) (a : α) (l : List α) :
    (a :: l).mapM f = (do let b ← f a; let bs ← l.mapM f; .ok (b :: bs) : Py (List β)) := by
  rw [List.mapM_cons]; rfl

theorem py_mapM_append {α β : Type} (f : α → Py β) (l₁ l₂ : List α) :
    (l₁ ++ l₂).mapM f
      = (do let a ← l₁.mapM f; let b ← l₂.mapM f; .ok (a ++ b) : Py (List β)) := by
  rw [List.mapM_append]; rfl

/-- A successful `mapM` acts pointwise. -/
theorem py_mapM_eq_ok {α β : Type} {f : α → Py β} {l : List α} {r : List β} :
    l.mapM f = .ok r ↔ List.Forall₂ (fun a b => f a = .ok b) l r := by
  induction l generalizing r with
  | nil => simp [eq_comm]
  | cons a l ih =>
    rw [py_mapM_cons]
    constructor
    · intro h
      obtain ⟨b, hb, h⟩ := py_bind_eq_ok.mp h
      obtain ⟨bs, hbs, h⟩ := py_bind_eq_ok.mp h
      cases h
      exact .cons hb (ih.mp hbs)
    · intro h
      cases h with
      | cons h1 h2 => ?_
      rw [h1, py_ok_bind, ih.mpr h2]; rfl

theorem py_mapM_length {α β : Type} {f : α → Py β} {l : List α} {r : List β}
    (h : l.mapM f = .ok r) : r.length = l.length :=
  (py_mapM_eq_ok.mp h).length_eq.symm

/-- `mapM` of functions that always succeed. -/
theorem py_mapM_ok {α β : Type} (f : α → Py β) (g : α → β) (l : List α)
    (h : ∀ a ∈ l, f a = .ok (g a)) : l.mapM f = .ok (l.map g) := by
  induction l with
  | nil => rfl
  | cons a l ih =>
    rw [py_mapM_cons, h a (by simp), ih (fun b hb => h b (by simp [hb]))]; rfl

theorem py_mapM_congr {α β : Type} {f g : α → Py β} {l : List α}
    (h : ∀ a ∈ l, f a = g a) : l.mapM f = l.mapM g := by
  induction l with
  | nil => rfl
  | cons a l ih =>
    rw [py_mapM_cons, py_mapM_cons, h a (by simp), ih (fun b hb => h b (by simp [hb]))]

/-- Apply `f k`, `f (k+1)`, … to successive list elements. -/
def goChan {α β : Type} (f : ℕ → α → Py β) : ℕ → List α → Py (List β)
  | _, [] => .ok []
  | k, x :: xs => do
    let y ← f k x
    let ys ← goChan f (k + 1) xs
    .ok (y :: ys)

theorem chanLoop_aux (f : ℕ → Flt K → Py (Flt K)) (xs : List (Flt K)) :
    ∀ (pre : List (Flt K)) (post : List (Flt K)),
    (List.range' pre.length xs.length).foldlM (init := pre ++ (xs ++ post))
      (fun px i => do
        let x ← pyGet px i
        let y ← f i x
        pySet px i y)
    = (do let ys ← goChan f pre.length xs; .ok (pre ++ (ys ++ post)) : Py (List (Flt K))) := by
  induction xs with
  | nil => intro pre post; rfl
  | cons x xs ih =>
    intro pre post
    rw [List.length_cons, List.range'_succ, List.foldlM_cons]
    have hg : pyGet (pre ++ (x :: xs ++ post)) pre.length = .ok x := by
      rw [pyGet_eq_ok]; simp
    rw [hg]
    simp only [py_ok_bind, goChan]
    cases hy : f pre.length x with
    | error e => rfl
    | ok y =>
      simp only [py_ok_bind]
      rw [pySet_of_lt (by simp)]
      simp only [py_ok_bind]
      have hs : (pre ++ (x :: xs ++ post)).set pre.length y = (pre ++ [y]) ++ (xs ++ post) := by
        rw [List.set_append_right _ _ (le_refl _)]; simp
      rw [hs]
      have := ih (pre ++ [y]) post
      rw [List.length_append, List.length_singleton] at this
      rw [this]
      cases goChan f (pre.length + 1) xs with
      | error e => rfl
      | ok ys => simp

/-- The channel loop applies `f` to the first `n` channels and keeps the rest. -/
theorem chanLoop_eq (n : ℕ) (f : ℕ → Flt K → Py (Flt K)) (px : List (Flt K)) (h : n ≤ px.length) :
    chanLoop n f px = (do let ys ← goChan f 0 (px.take n); .ok (ys ++ px.drop n)) := by
  have := chanLoop_aux f (px.take n) [] (px.drop n)
  simp only [List.nil_append, List.take_append_drop, List.length_nil, List.length_take,
    min_eq_left h] at this
  rw [chanLoop, List.range_eq_range']
  exact this

theorem goChan_const (f : Flt K → Py (Flt K)) (k : ℕ) (l : List (Flt K)) :
    goChan (fun _ => f) k l = l.mapM f := by
  induction l generalizing k with
  | nil => rfl
  | cons x xs ih => rw [goChan, py_mapM_cons, ih]

theorem goChan_length {α β : Type} {f : ℕ → α → Py β} {k : ℕ} {l : List α}
    {r : List β} (h : goChan f k l = .ok r) : r.length = l.length := by
  induction l generalizing k r with
  | nil => cases h; rfl
  | cons x xs ih =>
    simp only [goChan] at h
    obtain ⟨y, _, h⟩ := py_bind_eq_ok.mp h
    obtain ⟨ys, hys, h⟩ := py_bind_eq_ok.mp h
    cases h
    simp [ih hys]

theorem chanLoop_const (f : Flt K → Py (Flt K)) (l : List (Flt K)) :
    chanLoop l.length (fun _ => f) l = l.mapM f := by
  rw [chanLoop_eq _ _ _ le_rfl, goChan_const]
  simp only [List.take_length, List.drop_length]
  cases l.mapM f <;> simp

/-- A too short pixel makes the channel loop fail. -/
theorem chanLoop_short (n : ℕ) (f : ℕ → Flt K → Py (Flt K)) (px : List (Flt K))
    (h : px.length < n) : ∃ e, chanLoop n f px = .error e := by
  have h1 := chanLoop_eq px.length f px le_rfl
  rw [chanLoop] at h1 ⊢
  obtain ⟨m, rfl⟩ : ∃ m, n = px.length + (m + 1) := ⟨n - px.length - 1, by omega⟩
  rw [List.range_add, List.foldlM_append, h1, List.take_length]
  cases hg : goChan f 0 px with
  | error e => exact ⟨e, rfl⟩
  | ok ys =>
    refine ⟨.indexError, ?_⟩
    have hl := goChan_length hg
    rw [List.range_succ_eq_map]
    simp only [py_ok_bind, List.map_cons, List.foldlM_cons]
    rw [pyGet_of_ge (by simp [hl])]
    rfl

theorem chanLoop_length {n : ℕ} {f : ℕ → Flt K → Py (Flt K)} {px r : List (Flt K)}
    (h : chanLoop n f px = .ok r) : n ≤ px.length ∧ r.length = px.length := by
  have hn : n ≤ px.length := by
    by_contra hc
    obtain ⟨e, he⟩ := chanLoop_short n f px (by omega)
    rw [he] at h; cases h
  refine ⟨hn, ?_⟩
  rw [chanLoop_eq _ _ _ hn] at h
  obtain ⟨ys, hys, h⟩ := py_bind_eq_ok.mp h
  cases h
  have := goChan_length hys
  simp only [List.length_append, this, List.length_take, List.length_drop]
  omega

/-- The channel loop leaves the channels from `n` on alone. -/
theorem chanLoop_drop {n : ℕ} {f : ℕ → Flt K → Py (Flt K)} {px r : List (Flt K)}
    (h : chanLoop n f px = .ok r) : r.drop n = px.drop n := by
  have hn := (chanLoop_length h).1
  rw [chanLoop_eq _ _ _ hn] at h
  obtain ⟨ys, hys, h⟩ := py_bind_eq_ok.mp h
  cases h
  have hl : ys.length = n := by rw [goChan_length hys, List.length_take, min_eq_left hn]
  rw [List.drop_left' hl]

/-! ### The pixel loop -/

theorem pySlice_mid {α : Type} (a b c : List α) (k s : ℕ) (ha : a.length = k * s)
    (hb : b.length = s) : pySlice (a ++ (b ++ c)) (k * s) ((k + 1) * s) = b := by
  unfold pySlice
  rw [← ha, List.drop_left, Nat.succ_mul, ← ha, Nat.add_sub_cancel_left, List.take_left' hb]

theorem pySplice_mid {α : Type} (a b c b' : List α) (k s : ℕ) (ha : a.length = k * s)
    (hb : b.length = s) (hb' : b'.length = s) :
    pySplice (a ++ (b ++ c)) (k * s) b' = a ++ b' ++ c := by
  unfold pySplice
  have h : k * s + b'.length = (a ++ b).length := by simp [ha, hb, hb']
  rw [h, ← ha, List.take_left, ← List.append_assoc a b c, List.drop_left]

/-- The state transformer of one iteration of the pixel loop. -/
def pixelStep (s : ℕ)
    (body : List (Flt K) → List (Flt K) → Py (List (Flt K) × List (Flt K)))
    (st : List (Flt K) × List (Flt K)) (p : ℕ) : Py (List (Flt K) × List (Flt K)) := do
  let (v, o) ← body st.1 (pySlice st.1 (p * s) ((p + 1) * s))
  pure (pySplice st.1 (p * s) v, pySplice st.2 (p * s) o)

theorem pixelLoop_def (stride : ℕ) (values : List (Flt K))
    (body : List (Flt K) → List (Flt K) → Py (List (Flt K) × List (Flt K))) :
    pixelLoop stride values body = (do
      let s := if stride = 0 then values.length else stride
      let n ← pyDivNat values.length s
      let r ← (List.range n).foldlM (pixelStep s body)
        (values, List.replicate values.length (Flt.fin (0 : K)))
      .ok ⟨r.2, r.1, false⟩) := rfl

theorem pixelLoop_aux (s : ℕ) (g : List (Flt K) → Py (List (Flt K) × List (Flt K))) :
    ∀ (cs : List (List (Flt K))) (k : ℕ) (vd od tail orest : List (Flt K)),
    vd.length = k * s → od.length = k * s → cs.length * s ≤ orest.length →
    (∀ c ∈ cs, c.length = s) →
    (∀ c ∈ cs, ∀ v o, g c = .ok (v, o) → v.length = s ∧ o.length = s) →
    (List.range' k cs.length).foldlM (pixelStep s fun _ px => g px)
      (vd ++ (cs.flatten ++ tail), od ++ orest)
    = (do let ps ← cs.mapM g
          .ok (vd ++ ((ps.map Prod.fst).flatten ++ tail),
            od ++ ((ps.map Prod.snd).flatten ++ orest.drop (cs.length * s)))) := by
  intro cs
  induction cs with
  | nil => intro k vd od tail orest _ _ _ _ _; simp
  | cons c cs ih =>
    intro k vd od tail orest hv ho hr hc hg
    have hcl : c.length = s := hc c (by simp)
    have hr' : s + cs.length * s ≤ orest.length := by
      rw [List.length_cons, Nat.succ_mul] at hr; omega
    rw [List.length_cons, List.range'_succ, List.foldlM_cons, py_mapM_cons]
    simp only [pixelStep, List.flatten_cons, List.append_assoc]
    rw [pySlice_mid vd c _ k s hv hcl]
    cases hgc : g c with
    | error e => rfl
    | ok vo =>
      obtain ⟨v, o⟩ := vo
      obtain ⟨hvl, hol⟩ := hg c (by simp) v o hgc
      simp only [py_ok_bind, py_pure]
      have hot : orest = orest.take s ++ orest.drop s := (List.take_append_drop s orest).symm
      rw [pySplice_mid vd c _ v k s hv hcl hvl]
      conv_lhs => rw [hot]
      rw [pySplice_mid od (orest.take s) _ o k s ho (by simp; omega) hol]
      have := ih (k + 1) (vd ++ v) (od ++ o) tail (orest.drop s)
        (by simp [hv, hvl, Nat.succ_mul]) (by simp [ho, hol, Nat.succ_mul])
        (by simp; omega) (fun x hx => hc x (by simp [hx])) (fun x hx => hg x (by simp [hx]))
      rw [this]
      cases cs.mapM g with
      | error e => rfl
      | ok ps =>
        simp only [py_ok_bind, List.map_cons, List.flatten_cons, List.append_assoc,
          List.drop_drop]
        rw [Nat.succ_mul, Nat.add_comm s]

/-- The pixel loop on an array of whole pixels followed by a shorter rest. -/
theorem pixelLoop_chunks (s : ℕ) (hs : 0 < s)
    (g : List (Flt K) → Py (List (Flt K) × List (Flt K)))
    (cs : List (List (Flt K))) (tail : List (Flt K)) (hc : ∀ c ∈ cs, c.length = s)
    (ht : tail.length < s)
    (hg : ∀ c ∈ cs, ∀ v o, g c = .ok (v, o) → v.length = s ∧ o.length = s) :
    pixelLoop s (cs.flatten ++ tail) (fun _ px => g px)
    = (do let ps ← cs.mapM g
          .ok ⟨(ps.map Prod.snd).flatten ++ List.replicate tail.length (.fin 0),
            (ps.map Prod.fst).flatten ++ tail, false⟩) := by
  have hlen : cs.flatten.length = cs.length * s := by
    have h1 : cs.map List.length = List.replicate cs.length s := by
      rw [List.eq_replicate_iff]
      exact ⟨by simp, by simpa using hc⟩
    rw [List.length_flatten, h1]; simp
  have htot : (cs.flatten ++ tail).length = cs.length * s + tail.length := by
    rw [List.length_append, hlen]
  rw [pixelLoop_def]
  simp only [hs.ne', if_false, pyDivNat]
  have hn : (cs.flatten ++ tail).length / s = cs.length := by
    rw [htot, Nat.mul_comm, Nat.mul_add_div hs, Nat.div_eq_of_lt ht, Nat.add_zero]
  simp only [hn, py_ok_bind, List.range_eq_range']
  have := pixelLoop_aux s g cs 0 [] [] tail
    (List.replicate (cs.flatten ++ tail).length (.fin 0)) (by simp) (by simp)
    (by rw [List.length_replicate, htot]; omega) hc hg
  simp only [List.nil_append] at this
  rw [this]
  cases cs.mapM g with
  | error e => rfl
  | ok ps =>
    simp only [py_ok_bind, List.drop_replicate, htot, Nat.add_sub_cancel_left]

theorem pixelLoop_zero (values : List (Flt K))
    (body : List (Flt K) → List (Flt K) → Py (List (Flt K) × List (Flt K))) :
    pixelLoop 0 values body = pixelLoop values.length values body := by
  rw [pixelLoop_def, pixelLoop_def]
  by_cases h : values.length = 0 <;> simp [h]

/-- A stride of zero on an empty array divides by zero. -/
theorem pixelLoop_empty
    (body : List (Flt K) → List (Flt K) → Py (List (Flt K) × List (Flt K))) :
    pixelLoop 0 ([] : List (Flt K)) body = .error .zeroDivision := by
  rw [pixelLoop_def]; rfl

/-- Every list splits into chunks of size `s` and a shorter rest. -/
theorem exists_chunks {α : Type} (s : ℕ) (hs : 0 < s) (l : List α) :
    ∃ (cs : List (List α)) (tail : List α),
      l = cs.flatten ++ tail ∧ (∀ c ∈ cs, c.length = s) ∧ tail.length < s := by
  induction h : l.length using Nat.strong_induction_on generalizing l with
  | _ n ih =>
    by_cases hl : l.length < s
    · exact ⟨[], l, by simp, by simp, hl⟩
    · obtain ⟨cs, tail, he, hc, ht⟩ := ih (l.drop s).length (by simp; omega) (l.drop s) rfl
      refine ⟨l.take s :: cs, tail, ?_, ?_, ht⟩
      · rw [List.flatten_cons, List.append_assoc, ← he, List.take_append_drop]
      · intro c hcm
        rcases List.mem_cons.mp hcm with rfl | hcm
        · simp; omega
        · exact hc c hcm

/-- One pixel: the loop body is applied once. -/
theorem viewLoop_single (values : List (Flt K)) (h : values ≠ [])
    (g : List (Flt K) → Py (List (Flt K)))
    (hg : ∀ o, g values = .ok o → o.length = values.length) :
    viewLoop 0 values g = (do let o ← g values; .ok ⟨o, o, false⟩) := by
  have hs : 0 < values.length := List.length_pos_iff.mpr h
  unfold viewLoop
  rw [pixelLoop_zero]
  have := pixelLoop_chunks values.length hs (fun px => do let o ← g px; pure (o, o)) [values] []
    (by simp) hs (by
      intro c hc v o hvo
      simp only [List.mem_singleton] at hc
      subst hc
      obtain ⟨x, hx, hvo⟩ := py_bind_eq_ok.mp hvo
      cases hvo
      exact ⟨hg _ hx, hg _ hx⟩)
  simp only [List.flatten_cons, List.flatten_nil, List.append_nil] at this
  rw [this]
  cases hv : g values with
  | error e => simp [hv]
  | ok o => simp [hv]

/-- The view loop on whole pixels. -/
theorem viewLoop_chunks (s : ℕ) (hs : 0 < s) (g : List (Flt K) → Py (List (Flt K)))
    (cs : List (List (Flt K))) (tail : List (Flt K)) (hc : ∀ c ∈ cs, c.length = s)
    (ht : tail.length < s) (hg : ∀ c ∈ cs, ∀ o, g c = .ok o → o.length = s) :
    viewLoop s (cs.flatten ++ tail) g
    = (do let ps ← cs.mapM g
          .ok ⟨ps.flatten ++ List.replicate tail.length (.fin 0), ps.flatten ++ tail, false⟩) := by
  unfold viewLoop
  rw [pixelLoop_chunks s hs _ cs tail hc ht]
  · have : cs.mapM (fun px => do let o ← g px; (pure (o, o) : Py _))
        = (do let ps ← cs.mapM g; .ok (ps.map fun o => (o, o))) := by
      clear hc hg
      induction cs with
      | nil => rfl
      | cons c cs ih =>
        rw [py_mapM_cons, py_mapM_cons, ih]
        cases g c with
        | error e => rfl
        | ok o =>
          cases cs.mapM g with
          | error e => rfl
          | ok ps => rfl
    rw [this]
    cases cs.mapM g with
    | error e => rfl
    | ok ps =>
      have h1 : (Prod.snd ∘ fun o : List (Flt K) => (o, o)) = id := rfl
      have h2 : (Prod.fst ∘ fun o : List (Flt K) => (o, o)) = id := rfl
      simp [h1, h2]
  · intro c hcm v o hvo
    obtain ⟨x, hx, hvo⟩ := py_bind_eq_ok.mp hvo
    cases hvo
    exact ⟨hg c hcm _ hx, hg c hcm _ hx⟩

/-- A view loop over whole pixels with a body that always succeeds. -/
theorem viewLoop_pixels (s : ℕ) (hs : 0 < s) (f : List (Flt K) → Py (List (Flt K)))
    (g : List (Flt K) → List (Flt K)) (pixels : List (List (Flt K)))
    (hl : ∀ p ∈ pixels, p.length = s) (hf : ∀ p ∈ pixels, f p = .ok (g p))
    (hg : ∀ p ∈ pixels, (g p).length = s) :
    viewLoop s pixels.flatten f
    = .ok ⟨(pixels.map g).flatten, (pixels.map g).flatten, false⟩ := by
  have h := viewLoop_chunks s hs f pixels [] hl (by simpa) (by
    intro c hc o h
    rw [hf c hc] at h; cases h; exact hg c hc)
  rw [List.append_nil] at h
  rw [h, py_mapM_ok _ g pixels hf]
  simp

theorem goChan_ok {α β : Type} (f : ℕ → α → Py β) (g : ℕ → α → β) (k : ℕ) (l : List α)
    (h : ∀ i (hi : i < l.length), f (k + i) l[i] = .ok (g (k + i) l[i])) :
    goChan f k l = .ok (l.mapIdx fun i x => g (k + i) x) := by
  induction l generalizing k with
  | nil => rfl
  | cons x xs ih =>
    have h0 := h 0 (by simp)
    simp only [Nat.add_zero, List.getElem_cons_zero] at h0
    rw [goChan, h0, ih (k + 1) (fun i hi => by
      have := h (i + 1) (by simpa using hi)
      rw [show k + 1 + i = k + (i + 1) by omega]
      simpa using this)]
    simp only [py_ok_bind, List.mapIdx_cons, Nat.add_zero]
    congr 2
    apply List.ext_getElem (by simp)
    intro i _ _
    simp [show k + 1 + i = k + (i + 1) by omega]

/-- A channel loop whose body always succeeds. -/
theorem chanLoop_ok (n : ℕ) (f : ℕ → Flt K → Py (Flt K)) (g : ℕ → Flt K → Flt K)
    (px : List (Flt K)) (hn : n ≤ px.length)
    (h : ∀ i (hi : i < px.length), i < n → f i px[i] = .ok (g i px[i])) :
    chanLoop n f px = .ok (px.mapIdx fun i x => if i < n then g i x else x) := by
  rw [chanLoop_eq n f px hn, goChan_ok f g 0 (px.take n) (by
    intro i hi
    have hi' : i < n := by simp at hi; omega
    simp only [Nat.zero_add, List.getElem_take]
    exact h i (by omega) hi')]
  simp only [py_ok_bind, Nat.zero_add]
  congr 1
  apply List.ext_getElem (by simp [hn])
  intro i h1 h2
  have hi : i < px.length := by simpa using h2
  rw [List.getElem_append]
  split_ifs with hc
  · have : i < n := by simp at hc; omega
    simp [this]
  · have : ¬ i < n := by simp at hc; omega
    have e : n + (i - n) = i := by omega
    simp [this, hn, e]

end CLF
