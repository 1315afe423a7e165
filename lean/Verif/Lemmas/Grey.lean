import Verif.Lemmas.RoundedList
import Verif.Lemmas.Shape
import Verif.Spec.Grey

/-! # Lemmas: grey pixels -/

set_option linter.unusedSectionVars false

namespace CLF

variable {K : Type} [Field K] [LinearOrder K] [IsStrictOrderedRing K] [FloorRing K]

/-- One pixel. -/
def GreyPx (px : List (Flt K)) : Prop := ∀ c < 3, px[c]? = px[0]?

theorem GreyPx.cons {px : List (Flt K)} (h : GreyPx px) (hl : 3 ≤ px.length) : ∃ x rest, px = x :: x :: x :: rest := by
  match px, hl with
  | x :: y :: z :: rest, _ =>
    have h1 := h 1 (by norm_num)
    have h2 := h 2 (by norm_num)
    simp only [List.getElem?_cons_succ, List.getElem?_cons_zero, Option.some.injEq] at h1 h2
    exact ⟨x, rest, by rw [h1, h2]⟩

theorem greyPx_cons (x : Flt K) (rest : List (Flt K)) : GreyPx (x :: x :: x :: rest) := by
  intro c hc
  match c, hc with
  | 0, _ => rfl
  | 1, _ => rfl
  | 2, _ => rfl

theorem slice_getElem? {l : List (Flt K)} {a b i : ℕ} (h : i < b - a) : (pySlice l a b)[i]? = l[a + i]? := by
  rw [pySlice, List.getElem?_take_of_lt h, List.getElem?_drop]

theorem grey_slice {s p : ℕ} (hs : 3 ≤ s) {v : List (Flt K)} (h : Spec.GreyImage s v) (hp : p * s + s ≤ v.length) :
    GreyPx (pySlice v (p * s) ((p + 1) * s)) := by
  intro c hc
  rw [slice_getElem? (by rw [Nat.succ_mul]; omega), slice_getElem? (by rw [Nat.succ_mul]; omega), Nat.add_zero]
  exact h p hp c hc

theorem splice_getElem?_lt {l new : List (Flt K)} {a j : ℕ} (hj : j < a) (ha : a ≤ l.length) : (pySplice l a new)[j]? = l[j]? := by
  rw [pySplice, List.append_assoc, List.getElem?_append_left (by rw [List.length_take]; omega), List.getElem?_take_of_lt hj]

theorem splice_getElem?_mid {l new : List (Flt K)} {a j : ℕ} (hj : j < new.length) (ha : a ≤ l.length) :
    (pySplice l a new)[a + j]? = new[j]? := by
  rw [pySplice, List.append_assoc, List.getElem?_append_right (by rw [List.length_take]; omega), List.length_take, min_eq_left ha,
    Nat.add_sub_cancel_left, List.getElem?_append_left hj]

theorem splice_getElem?_gt {l new : List (Flt K)} {a j : ℕ} (hj : a + new.length ≤ j) (ha : a ≤ l.length) :
    (pySplice l a new)[j]? = l[j]? := by
  rw [pySplice, List.getElem?_append_right (by rw [List.length_append, List.length_take]; omega), List.length_append, List.length_take,
    min_eq_left ha, List.getElem?_drop]
  congr 1
  omega

theorem grey_splice {s p : ℕ} (hs : 3 ≤ s) {v new : List (Flt K)} (h : Spec.GreyImage s v) (hp : p * s + s ≤ v.length) (hn : GreyPx new)
    (hl : new.length = s) : Spec.GreyImage s (pySplice v (p * s) new) := by
  have ha : p * s ≤ v.length := by omega
  intro k hk c hc
  rw [pySplice_length _ _ _ (by omega)] at hk
  rcases lt_trichotomy k p with hkp | rfl | hkp
  · have : k * s + s ≤ p * s := by rw [← Nat.succ_mul]; exact Nat.mul_le_mul_right _ hkp
    rw [splice_getElem?_lt (by omega) ha, splice_getElem?_lt (by omega) ha]
    exact h k hk c hc
  · rw [splice_getElem?_mid (by omega) ha]
    have := splice_getElem?_mid (l := v) (new := new) (a := k * s) (j := 0) (by omega) ha
    rw [Nat.add_zero] at this
    rw [this]
    exact hn c hc
  · have : p * s + s ≤ k * s := by rw [← Nat.succ_mul]; exact Nat.mul_le_mul_right _ hkp
    rw [splice_getElem?_gt (by omega) ha, splice_getElem?_gt (by omega) ha]
    exact h k hk c hc

theorem grey_zeros (s n : ℕ) (hs : 3 ≤ s) : Spec.GreyImage s (List.replicate n (.fin (0 : K))) := by
  intro k hk c hc
  rw [List.length_replicate] at hk
  rw [List.getElem?_replicate, List.getElem?_replicate, if_pos (by omega), if_pos (by omega)]

theorem grey_map {s : ℕ} {v : List (Flt K)} (f : Flt K → Flt K) (h : Spec.GreyImage s v) : Spec.GreyImage s (v.map f) := by
  intro k hk c hc
  rw [List.length_map] at hk
  rw [List.getElem?_map, List.getElem?_map, h k hk c hc]

theorem mapM_get {f : Flt K → Py (Flt K)} {l r : List (Flt K)} (h : l.mapM f = .ok r) :
    r.length = l.length ∧ ∀ (i : ℕ) x, l[i]? = some x → ∃ y, r[i]? = some y ∧ f x = .ok y := by
  induction l generalizing r with
  | nil => cases h; exact ⟨rfl, fun i x hx => by simp at hx⟩
  | cons a l ih =>
    rw [py_mapM_cons] at h
    obtain ⟨y, hy, h⟩ := py_bind_eq_ok.mp h
    obtain ⟨ys, hys, h⟩ := py_bind_eq_ok.mp h
    cases h
    obtain ⟨i1, i2⟩ := ih hys
    refine ⟨by simp [i1], fun i x hx => ?_⟩
    cases i with
    | zero =>
      simp only [List.getElem?_cons_zero, Option.some.injEq] at hx ⊢
      subst hx
      exact ⟨y, rfl, hy⟩
    | succ i =>
      simp only [List.getElem?_cons_succ] at hx ⊢
      exact i2 i x hx

theorem grey_mapM {s : ℕ} {f : Flt K → Py (Flt K)} {v r : List (Flt K)} (hv : Spec.GreyImage s v) (h : v.mapM f = .ok r) (hs : 3 ≤ s) :
    Spec.GreyImage s r := by
  obtain ⟨h1, h2⟩ := mapM_get h
  intro k hk c hc
  rw [h1] at hk
  have e := hv k hk c hc
  obtain ⟨x, hx⟩ : ∃ x, v[k * s]? = some x := ⟨_, List.getElem?_eq_getElem (by omega)⟩
  obtain ⟨y, e1, e2⟩ := h2 _ _ hx
  obtain ⟨y', e3, e4⟩ := h2 _ _ (e.trans hx)
  rw [e1, e3, Except.ok.inj (e4.symm.trans e2)]

/-- A loop over pixels that leaves every grey pixel grey. -/
theorem grey_loop {s : ℕ} (hs : 3 ≤ s) {v : List (Flt K)} (body : List (Flt K) → List (Flt K) → Py (List (Flt K) × List (Flt K)))
    (hb : ∀ vals px a o, px.length = s → s ≤ vals.length → GreyPx px → body vals px = .ok (a, o) → (a.length = s ∧ o.length = s) ∧ GreyPx a ∧ GreyPx o)
    (hlen : ∀ vals px a o, px.length = s → s ≤ vals.length → body vals px = .ok (a, o) → a.length = s ∧ o.length = s)
    (hv : Spec.GreyImage s v) {r : Res K} (hr : pixelLoop s v body = .ok r) : Spec.GreyImage s r.out := by
  refine (pixelLoop_inv s (by omega) v body (fun vals px a o h1 h2 h3 h4 => hlen vals px a o h2 (by omega) h4) (Spec.GreyImage s) (Spec.GreyImage s) hv
    (grey_zeros s _ hs) ?_ r hr).2.2.2
  intro vals out p a o h1 h2 h3 h4 h5 h6
  obtain ⟨⟨k1, k2⟩, k3, k4⟩ := hb vals _ a o (by rw [pySlice_length _ _ _ (by rw [Nat.succ_mul]; omega), Nat.succ_mul]; omega) (by omega)
    (grey_slice hs h4 (by omega)) h6
  exact ⟨grey_splice hs h4 (by omega) k3 k1, grey_splice hs h5 (by omega) k4 k2⟩

theorem grey_view {s : ℕ} (hs : 3 ≤ s) {v : List (Flt K)} (body : List (Flt K) → Py (List (Flt K)))
    (hlen : ∀ px o, body px = .ok o → o.length = px.length) (hb : ∀ px o, GreyPx px → 3 ≤ px.length → body px = .ok o → GreyPx o)
    (hv : Spec.GreyImage s v) {r : Res K} (hr : viewLoop s v body = .ok r) : Spec.GreyImage s r.out := by
  have len : ∀ vals px a o : List (Flt K), px.length = s → s ≤ vals.length → (do let o ← body px; (pure (o, o) : Py (List (Flt K) × List (Flt K)))) = .ok (a, o) →
      a.length = s ∧ o.length = s := by
    intro vals px a o h1 h2 h3
    obtain ⟨q, hq, h3⟩ := py_bind_eq_ok.mp h3
    cases h3
    have := hlen px _ hq
    exact ⟨by omega, by omega⟩
  unfold viewLoop at hr
  refine grey_loop hs _ ?_ len hv hr
  intro vals px a o h1 h2 h3 h4
  refine ⟨len vals px a o h1 h2 h4, ?_⟩
  obtain ⟨q, hq, h4⟩ := py_bind_eq_ok.mp h4
  cases h4
  exact ⟨hb px _ h3 (by omega) hq, hb px _ h3 (by omega) hq⟩

/-- A channel loop that treats the channels alike. -/
theorem grey_chan {f : ℕ → Flt K → Py (Flt K)} (hf : ∀ i < 3, ∀ x, f i x = f 0 x) {px o : List (Flt K)} (hpx : GreyPx px)
    (h : chanLoop 3 f px = .ok o) : GreyPx o := by
  obtain ⟨hl, _⟩ := chanLoop_length h
  obtain ⟨x, rest, rfl⟩ := hpx.cons hl
  rw [chanLoop_eq _ _ _ hl] at h
  have e : (x :: x :: x :: rest).take 3 = [x, x, x] := rfl
  rw [e] at h
  obtain ⟨ys, hys, h⟩ := py_bind_eq_ok.mp h
  cases h
  simp only [goChan, Nat.zero_add] at hys
  rw [hf 1 (by norm_num), hf (1 + 1) (by norm_num)] at hys
  cases hy : f 0 x with
  | error e => rw [hy] at hys; cases hys
  | ok y =>
    rw [hy] at hys
    simp only [py_ok_bind] at hys
    cases hys
    exact greyPx_cons y _

/-! ### Nodes -/

theorem oneCurve_lookup {a : Arr K} (h : Spec.OneCurve a) (i : ℤ) (c : ℕ) (hc : c < 3) : a.lookup1D i c = a.lookup1D i 0 := by
  have col : (∀ k, ∀ c < 3, a.values[k * 3 + c]? = a.values[k * 3]?) → ∀ j : ℤ, 0 ≤ j →
      pyIdx a.values (j * 3 + (c : ℤ)) = pyIdx a.values (j * 3 + 0) := by
    intro h j hj
    obtain ⟨k, rfl⟩ := Int.eq_ofNat_of_zero_le hj
    have := h k c hc
    unfold pyIdx
    have e1 : ((k : ℤ) * 3 + (c : ℤ)).toNat = k * 3 + c := by omega
    have e2 : ((k : ℤ) * 3 + 0).toNat = k * 3 := by omega
    simp only [show ¬ ((k : ℤ) * 3 + (c : ℤ) < 0) by omega, show ¬ ((k : ℤ) * 3 + 0 < 0) by omega, if_false, e1, e2, this]
  unfold Arr.lookup1D
  cases h0 : pyGet a.dims 0 with
  | error e => rfl
  | ok d0 =>
    cases h1 : pyGet a.dims 1 with
    | error e => rfl
    | ok d1 =>
      simp only [py_ok_bind]
      by_cases h3 : d1 = 3
      · subst h3
        rcases h with h | ⟨h2, h⟩
        · exact absurd (pyGet_eq_ok.mp h1) h
        · have hd : d0 ≠ 0 := by rintro rfl; exact h2 (pyGet_eq_ok.mp h0)
          have m1 : max 0 (min 2 (c : ℤ)) = c := by omega
          have m2 : max 0 (min 2 ((0 : ℕ) : ℤ)) = 0 := by omega
          simp only [if_true, m1, m2]
          split_ifs with k1 k2
          · have := col h 0 le_rfl
            simpa using this
          · exact col h _ (by omega)
          · exact col h _ (by omega)
      · simp only [if_neg h3]

theorem oneCurve_linear (R : Rounding K) {a : Arr K} (h : Spec.OneCurve a) (x : Flt K) (c : ℕ) (hc : c < 3) :
    a.lookup1DLinearR R x c = a.lookup1DLinearR R x 0 := by
  unfold Arr.lookup1DLinearR
  simp only [oneCurve_lookup h _ c hc]

theorem oneCurve_half (R : Rounding K) (t : Fmt) {a : Arr K} (h : Spec.OneCurve a) (x : Flt K) (c : ℕ) (hc : c < 3) :
    a.lookup1DHalfDomainInterpolatedR R t x c = a.lookup1DHalfDomainInterpolatedR R t x 0 := by
  unfold Arr.lookup1DHalfDomainInterpolatedR
  simp only [oneCurve_lookup h _ c hc]

theorem normalize_alike (R : Rounding K) {maps : List (IndexMap K)} (hm : maps.length ≤ 1) (inD : Depth) (dim : Py ℕ) (i : ℕ) (x : Flt K) :
    lutNormalizeR R maps inD dim i x = lutNormalizeR R maps inD dim 0 x := by
  unfold lutNormalizeR
  simp only [show ¬ 1 < maps.length by omega, if_false]

theorem grey_range (R : Rounding K) (b : Base K) {s : ℕ} (hs : 3 ≤ s) {v : List (Flt K)} (hv : Spec.GreyImage s v) {r : Res K}
    (hr : rangeProcessR R b v = .ok r) : Spec.GreyImage s r.out := by
  unfold rangeProcessR at hr
  obtain ⟨inD, _, hr⟩ := py_bind_eq_ok.mp hr
  obtain ⟨outD, _, hr⟩ := py_bind_eq_ok.mp hr
  obtain ⟨o, ho, hr⟩ := py_bind_eq_ok.mp hr
  cases hr
  rw [chanLoop_const] at ho
  exact grey_mapM hv ho hs

theorem grey_lut1d (R : Rounding K) (t : Fmt) (b : Base K) (hb : ∀ a, b.array = .ok a → Spec.OneCurve a) (hm : b.indexMaps.length ≤ 1) {s : ℕ}
    (hs : 3 ≤ s) {v : List (Flt K)} (hv : Spec.GreyImage s v) {r : Res K} (hr : lut1dProcessR R t b v s = .ok r) : Spec.GreyImage s r.out := by
  unfold lut1dProcessR at hr
  obtain ⟨inD, _, hr⟩ := py_bind_eq_ok.mp hr
  obtain ⟨outD, _, hr⟩ := py_bind_eq_ok.mp hr
  obtain ⟨a, ha, hr⟩ := py_bind_eq_ok.mp hr
  have h1 := hb a ha
  refine grey_view hs _ (fun px o h => (chanLoop_length h).2) (fun px o hpx hl h => ?_) hv hr
  rw [min_eq_left hl] at h
  refine grey_chan (fun i hi x => ?_) hpx h
  simp only [normalize_alike R hm inD _ i x, oneCurve_linear R h1 _ i hi, oneCurve_half R t h1 _ i hi, Arr.lookup1DCubic]

theorem sameForAll_get {l : Option (List (Flt K))} (h : Spec.SameForAll l) (d : Flt K) (i : ℕ) (hi : i < 3) :
    pyGet (l.getD [d, d, d]) i = pyGet (l.getD [d, d, d]) 0 := by
  cases l with
  | none => match i, hi with
    | 0, _ => rfl
    | 1, _ => rfl
    | 2, _ => rfl
  | some v =>
    obtain ⟨x, rfl⟩ := h v rfl
    match i, hi with
    | 0, _ => rfl
    | 1, _ => rfl
    | 2, _ => rfl

theorem grey_cdl (R : Rounding K) (L : Arith K) (compat : ℕ) (w : CdlValues K) (h1 : Spec.SameForAll w.slope) (h2 : Spec.SameForAll w.offset)
    (h3 : Spec.SameForAll w.power) (b : Base K) {s : ℕ} (hs : 3 ≤ s) {v : List (Flt K)} (hv : Spec.GreyImage s v) {r : Res K}
    (hr : cdlProcessR R L compat w b v s = .ok r) : Spec.GreyImage s r.out := by
  unfold cdlProcessR at hr
  simp only [show ¬ s = 0 by omega, show ¬ s < 3 by omega, if_false] at hr
  obtain ⟨inD, _, hr⟩ := py_bind_eq_ok.mp hr
  obtain ⟨outD, _, hr⟩ := py_bind_eq_ok.mp hr
  split_ifs at hr with hc
  have g1 : ∀ i < 3, pyGet w.resolve.slope i = pyGet w.resolve.slope 0 := fun i hi => sameForAll_get h1 _ i hi
  have g2 : ∀ i < 3, pyGet w.resolve.offset i = pyGet w.resolve.offset 0 := fun i hi => sameForAll_get h2 _ i hi
  have g3 : ∀ i < 3, pyGet w.resolve.power i = pyGet w.resolve.power 0 := fun i hi => sameForAll_get h3 _ i hi
  refine grey_view hs _ (fun px o h => cdlPixelR_length h) (fun px o hpx hl h => ?_) hv hr
  unfold cdlPixelR at h
  split_ifs at h
  iterate 4
    · first | unfold cdlFwdR at h | unfold cdlFwdNoClampR at h | unfold cdlRevR at h | unfold cdlRevNoClampR at h
      obtain ⟨p1, k1, h⟩ := py_bind_eq_ok.mp h
      obtain ⟨l, _, h⟩ := py_bind_eq_ok.mp h
      exact grey_chan (fun i hi x => by simp only [g1 i hi, g2 i hi, g3 i hi])
        (grey_chan (fun i hi x => by simp only [g1 i hi, g2 i hi, g3 i hi]) hpx k1) h
  · cases h; exact hpx

theorem ec_length {R : Rounding K} {L : Arith K} {st : AVal} {e c p : Flt K} {d1 d2 : Depth} {px o : List (Flt K)}
    (h : ecChannelsR R L st e c p d1 d2 px = .ok o) : o.length = px.length := by
  unfold ecChannelsR at h
  split_ifs at h
  · exact (chanLoop_length h).2
  · exact (chanLoop_length h).2
  · exact (chanLoop_length h).2
  · cases h; rfl

theorem grey_ec (R : Rounding K) (L : Arith K) (e c p : Flt K) (b : Base K) {s : ℕ} (hs : 3 ≤ s) {v : List (Flt K)} (hv : Spec.GreyImage s v)
    {r : Res K} (hr : ecProcessR R L e c p b v s = .ok r) : Spec.GreyImage s r.out := by
  unfold ecProcessR at hr
  obtain ⟨inD, _, hr⟩ := py_bind_eq_ok.mp hr
  obtain ⟨outD, _, hr⟩ := py_bind_eq_ok.mp hr
  have len : ∀ vals px a o : List (Flt K), px.length = s → s ≤ vals.length →
      (do
        let px' ← ecChannelsR R L (b.styleOf "style") e c p inD outD px
        let o := px'.take 3 ++ pySlice vals (min 3 px.length) px.length
        (pure (o, o) : Py (List (Flt K) × List (Flt K)))) = .ok (a, o) → a.length = s ∧ o.length = s := by
    intro vals px a o h1 h2 h3
    obtain ⟨q, hq, h3⟩ := py_bind_eq_ok.mp h3
    cases h3
    have := ec_length hq
    have l : (q.take 3 ++ pySlice vals (min 3 px.length) px.length).length = s := by
      rw [List.length_append, List.length_take, pySlice_length _ _ _ (by omega)]
      omega
    exact ⟨l, l⟩
  refine grey_loop hs _ ?_ len hv hr
  intro vals px a o k1 k2 hpx k3
  refine ⟨len vals px a o k1 k2 k3, ?_⟩
  obtain ⟨q, hq, k3⟩ := py_bind_eq_ok.mp k3
  cases k3
  have hlq := ec_length hq
  have gq : GreyPx q := by
    unfold ecChannelsR at hq
    split_ifs at hq
    · exact grey_chan (fun i hi x => rfl) hpx hq
    · exact grey_chan (fun i hi x => rfl) hpx hq
    · exact grey_chan (fun i hi x => rfl) hpx hq
    · cases hq; exact hpx
  obtain ⟨x, rest, rfl⟩ := gq.cons (by omega)
  exact ⟨greyPx_cons x _, greyPx_cons x _⟩

theorem foldlM_rows {ρ σ : Type} (chan : ρ → Option String) (val : ρ → σ) (rows : List ρ) (h : ∀ p ∈ rows, chan p = none) (f : List σ → ρ → Py (List σ))
    (hf : ∀ acc p, chan p = none → f acc p = .ok (List.replicate 3 (val p))) (d : σ) :
    ∃ x, rows.foldlM f (List.replicate 3 d) = .ok (List.replicate 3 x) := by
  induction rows generalizing d with
  | nil => exact ⟨d, rfl⟩
  | cons p rows ih =>
    rw [List.foldlM_cons, hf _ _ (h p (by simp)), py_ok_bind]
    exact ih (fun q hq => h q (by simp [hq])) (val p)

theorem replicate_get {σ : Type} (x : σ) (i : ℕ) (hi : i < 3) : pyGet (List.replicate 3 x) i = .ok x := by
  match i, hi with
  | 0, _ => rfl
  | 1, _ => rfl
  | 2, _ => rfl

theorem grey_gamma (R : Rounding K) (L : Arith K) (ps : List (GammaParam K)) (hps : ∀ p ∈ ps, p.channel = none) (b : Base K) {s : ℕ} (hs : 3 ≤ s)
    {v : List (Flt K)} (hv : Spec.GreyImage s v) {r : Res K} (hr : gammaProcessR R L ps b v s = .ok r) : Spec.GreyImage s r.out := by
  unfold gammaProcessR at hr
  obtain ⟨inD, _, hr⟩ := py_bind_eq_ok.mp hr
  obtain ⟨outD, _, hr⟩ := py_bind_eq_ok.mp hr
  obtain ⟨q, hq, hr⟩ := py_bind_eq_ok.mp hr
  obtain ⟨x, hx⟩ : ∃ x, gammaParams ps = .ok (List.replicate 3 x) := by
    unfold gammaParams
    refine foldlM_rows GammaParam.channel (fun p => (p.gamma, p.offset)) ps hps _ ?_ _
    intro acc p h
    simp only [h]
  rw [hx] at hq
  cases hq
  cases hst : gammaStyleR R L (b.styleOf "style") with
  | none =>
    rw [hst] at hr
    exact grey_view hs _ (fun px o h => by cases h; rfl) (fun px o hpx hl h => by cases h; exact hpx) hv hr
  | some f =>
    rw [hst] at hr
    refine grey_view hs _ (fun px o h => (chanLoop_length h).2) (fun px o hpx hl h => grey_chan (fun i hi y => ?_) hpx h) hv hr
    simp only [replicate_get x i hi, replicate_get x 0 (by norm_num)]

theorem grey_log (R : Rounding K) (L : Arith K) (ps : List (LogParam K)) (hps : ∀ p ∈ ps, p.channel = none) (b : Base K) {s : ℕ} (hs : 3 ≤ s)
    {v : List (Flt K)} (hv : Spec.GreyImage s v) {r : Res K} (hr : logProcessR R L ps b v s = .ok r) : Spec.GreyImage s r.out := by
  unfold logProcessR at hr
  obtain ⟨inD, _, hr⟩ := py_bind_eq_ok.mp hr
  obtain ⟨outD, _, hr⟩ := py_bind_eq_ok.mp hr
  obtain ⟨q, hq, hr⟩ := py_bind_eq_ok.mp hr
  obtain ⟨x, hx⟩ : ∃ x, logParamsR R ps = .ok (List.replicate 3 x) := by
    unfold logParamsR
    refine foldlM_rows LogParam.channel (fun p => p) ps hps _ ?_ _
    intro acc p h
    simp only [h]
  rw [hx] at hq
  cases hq
  cases hst : logStyleR R L (b.styleOf "style") with
  | none =>
    rw [hst] at hr
    exact grey_view hs _ (fun px o h => by cases h; rfl) (fun px o hpx hl h => by cases h; exact hpx) hv hr
  | some f =>
    rw [hst] at hr
    refine grey_view hs _ (fun px o h => (chanLoop_length h).2) (fun px o hpx hl h => grey_chan (fun i hi y => ?_) hpx h) hv hr
    simp only [replicate_get x i hi, replicate_get x 0 (by norm_num)]

/-! ### Cubes -/

theorem blend4R_grey (R : Rounding K) (h0 : R double (.fin 0) = .fin 0) (w0 w3 : Flt K) {a b c d : List (Flt K)} (ha : GreyPx a) (hd : GreyPx d)
    (hb : ∀ x ∈ b, ∃ q, x = .fin q) (hc : ∀ x ∈ c, ∃ q, x = .fin q) {ch : ℕ} (hch : ch < 3) {r : Flt K}
    (h : Arr.blend4R R w0 (.fin 0) (.fin 0) w3 a b c d ch = .ok r) :
    ∃ a0 d0, a[0]? = some a0 ∧ d[0]? = some d0 ∧ r = R double (R double (R double (R double (w0 * a0) + .fin 0) + .fin 0) + R double (w3 * d0)) := by
  unfold Arr.blend4R at h
  obtain ⟨a0, h1, h⟩ := py_bind_eq_ok.mp h
  obtain ⟨b0, h2, h⟩ := py_bind_eq_ok.mp h
  obtain ⟨c0, h3, h⟩ := py_bind_eq_ok.mp h
  obtain ⟨d0, h4, h⟩ := py_bind_eq_ok.mp h
  obtain ⟨qb, rfl⟩ := hb b0 (List.mem_of_getElem? (pyGet_eq_ok.mp h2))
  obtain ⟨qc, rfl⟩ := hc c0 (List.mem_of_getElem? (pyGet_eq_ok.mp h3))
  cases h
  have z : ∀ q : K, (Flt.fin 0 * Flt.fin q : Flt K) = .fin 0 := fun q => by show Flt.fin (0 * q) = _; rw [zero_mul]
  refine ⟨a0, d0, (ha ch hch).symm.trans (pyGet_eq_ok.mp h1), (hd ch hch).symm.trans (pyGet_eq_ok.mp h4), ?_⟩
  simp only [sum2R, z, h0]

theorem tetra_grey (R : Rounding K) (h0 : R double (.fin 0) = .fin 0) {a : Arr K} (ha : Spec.GreyDiagonal a) {px o : List (Flt K)} (hpx : GreyPx px)
    (hl : 3 ≤ px.length) (h : a.lookup3DTetrahedralR R px = .ok o) : ∃ x, o = [x, x, x] := by
  obtain ⟨⟨n, rest, hn, hd, hg⟩, hf⟩ := ha
  obtain ⟨x, tl, rfl⟩ := hpx.cons hl
  have look : ∀ i j k : ℤ, a.lookup3D i j k = .ok (pySlice a.values
      (((max 0 (min i ((n : ℤ) - 1))).toNat * n * n + (max 0 (min j ((n : ℤ) - 1))).toNat * n + (max 0 (min k ((n : ℤ) - 1))).toNat) * 3)
      (((max 0 (min i ((n : ℤ) - 1))).toNat * n * n + (max 0 (min j ((n : ℤ) - 1))).toNat * n + (max 0 (min k ((n : ℤ) - 1))).toNat) * 3 + 3)) := by
    intro i j k
    simp only [Arr.lookup3D, Arr.dims3, hd, py_ok_bind]
    rfl
  have diag : ∀ i : ℤ, GreyPx (pySlice a.values
      (((max 0 (min i ((n : ℤ) - 1))).toNat * n * n + (max 0 (min i ((n : ℤ) - 1))).toNat * n + (max 0 (min i ((n : ℤ) - 1))).toNat) * 3)
      (((max 0 (min i ((n : ℤ) - 1))).toNat * n * n + (max 0 (min i ((n : ℤ) - 1))).toNat * n + (max 0 (min i ((n : ℤ) - 1))).toNat) * 3 + 3)) := by
    intro i c hc
    have hi : (max 0 (min i ((n : ℤ) - 1))).toNat < n := by omega
    generalize (max 0 (min i ((n : ℤ) - 1))).toNat = k at hi
    rw [slice_getElem? (by omega), slice_getElem? (by omega), Nat.add_zero]
    exact hg k hi c hc
  have fin : ∀ u v, ∀ y ∈ pySlice a.values u v, ∃ q, y = .fin q := fun u v y hy =>
    hf y (List.mem_of_mem_drop (List.mem_of_mem_take hy))
  have e0 : pyGet a.dims 0 = .ok n := by rw [hd]; rfl
  have e1 : pyGet a.dims 1 = .ok n := by rw [hd]; rfl
  have e2 : pyGet a.dims 2 = .ok n := by rw [hd]; rfl
  have p0 : pyGet ((x :: x :: x :: tl).map clamp01) 0 = .ok (clamp01 x) := rfl
  have p1 : pyGet ((x :: x :: x :: tl).map clamp01) 1 = .ok (clamp01 x) := rfl
  have p2 : pyGet ((x :: x :: x :: tl).map clamp01) 2 = .ok (clamp01 x) := rfl
  unfold Arr.lookup3DTetrahedralR Arr.cornersR at h
  simp only [e0, e1, e2, p0, p1, p2, py_ok_bind, look] at h
  cases hx : R double (clamp01 x * .fin ((n : K) - 1)) with
  | inf b => rw [hx] at h; cases h
  | nan => rw [hx] at h; cases h
  | fin t =>
    rw [hx] at h
    simp only [py_ok_bind, py_pure, gt_iff_lt, lt_self_iff_false, if_false, sub_self, h0] at h
    obtain ⟨r, hr, h⟩ := py_bind_eq_ok.mp h
    obtain ⟨g, hgr, h⟩ := py_bind_eq_ok.mp h
    obtain ⟨b, hb, h⟩ := py_bind_eq_ok.mp h
    cases h
    obtain ⟨x1, y1, a1, b1, rfl⟩ := blend4R_grey R h0 _ _ (diag _) (diag _) (fin _ _) (fin _ _) (by norm_num) hr
    obtain ⟨x2, y2, a2, b2, rfl⟩ := blend4R_grey R h0 _ _ (diag _) (diag _) (fin _ _) (fin _ _) (by norm_num) hgr
    obtain ⟨x3, y3, a3, b3, rfl⟩ := blend4R_grey R h0 _ _ (diag _) (diag _) (fin _ _) (fin _ _) (by norm_num) hb
    rw [a1] at a2 a3
    rw [b1] at b2 b3
    cases a2; cases a3; cases b2; cases b3
    exact ⟨_, rfl⟩

theorem assign3R_length {R : Rounding K} {px c o : List (Flt K)} (hl : 3 ≤ px.length) (h : assign3R R px c = .ok o) : o.length = px.length := by
  unfold assign3R at h
  split at h
  · cases h; simp; omega
  · cases h; simp; omega
  · cases h

theorem grey_lut3d (R : Rounding K) (h0 : R double (.fin 0) = .fin 0) (b : Base K) (hi : b.styleOf "interpolation" ≠ .str "trilinear")
    (hb : ∀ a, b.array = .ok a → Spec.GreyDiagonal a) (hm : b.indexMaps.length ≤ 1) {s : ℕ}
    (hs : 3 ≤ s) {v : List (Flt K)} (hv : Spec.GreyImage s v) {r : Res K} (hr : lut3dProcessR R b v s = .ok r) : Spec.GreyImage s r.out := by
  unfold lut3dProcessR at hr
  obtain ⟨inD, _, hr⟩ := py_bind_eq_ok.mp hr
  obtain ⟨outD, _, hr⟩ := py_bind_eq_ok.mp hr
  obtain ⟨a, ha, hr⟩ := py_bind_eq_ok.mp hr
  have hg := hb a ha
  have hdim : ∀ i < 3, pyGet a.dims i = pyGet a.dims 0 := by
    obtain ⟨n, rest, -, hd, -⟩ := hg.shape
    intro i hi
    rw [hd]
    match i, hi with
    | 0, _ => rfl
    | 1, _ => rfl
    | 2, _ => rfl
  simp only [if_neg hi] at hr
  have body : ∀ px o : List (Flt K), (do
      let px ← chanLoop (min 3 px.length) (fun i x => lutNormalizeR R b.indexMaps inD (pyGet a.dims i) i x) px
      if b.styleOf "interpolation" = AVal.str "tetrahedral" then do
        let c ← a.lookup3DTetrahedralR R px
        assign3R R px c
      else (pure px : Py (List (Flt K)))) = .ok o → 3 ≤ px.length → o.length = px.length ∧ (GreyPx px → GreyPx o) := by
    intro px o h hl
    obtain ⟨q, hq, h⟩ := py_bind_eq_ok.mp h
    have lq := (chanLoop_length hq).2
    rw [min_eq_left hl] at hq
    have gq : GreyPx px → GreyPx q := fun hpx => grey_chan (fun i hi x => by rw [hdim i hi, normalize_alike R hm inD _ i x]) hpx hq
    split_ifs at h
    · obtain ⟨c, hc, h⟩ := py_bind_eq_ok.mp h
      refine ⟨(assign3R_length (by omega) h).trans lq, fun hpx => ?_⟩
      obtain ⟨x, rfl⟩ := tetra_grey R h0 hg (gq hpx) (by omega) hc
      cases h
      exact greyPx_cons _ _
    · cases h
      exact ⟨lq, gq⟩
  have len : ∀ vals px a' o : List (Flt K), px.length = s → s ≤ vals.length → (do
      let o ← (do
        let px ← chanLoop (min 3 px.length) (fun i x => lutNormalizeR R b.indexMaps inD (pyGet a.dims i) i x) px
        if b.styleOf "interpolation" = AVal.str "tetrahedral" then do
          let c ← a.lookup3DTetrahedralR R px
          assign3R R px c
        else (pure px : Py (List (Flt K))))
      (pure (o, o) : Py (List (Flt K) × List (Flt K)))) = .ok (a', o) → (a'.length = s ∧ o.length = s) ∧ (GreyPx px → GreyPx a' ∧ GreyPx o) := by
    intro vals px a' o h1 h2 h3
    obtain ⟨q, hq, h3⟩ := py_bind_eq_ok.mp h3
    cases h3
    obtain ⟨k1, k2⟩ := body px _ hq (by omega)
    exact ⟨⟨by omega, by omega⟩, fun h => ⟨k2 h, k2 h⟩⟩
  unfold viewLoop at hr
  exact grey_loop hs _ (fun vals px a' o h1 h2 h3 h4 => ⟨(len vals px a' o h1 h2 h4).1, (len vals px a' o h1 h2 h4).2 h3⟩)
    (fun vals px a' o h1 h2 h4 => (len vals px a' o h1 h2 h4).1) hv hr

/-! ### Lists -/

mutual

theorem grey_node (E : Evaluator K) (h0 : E.rounding double (.fin 0) = .fin 0) (compat : ℕ) {s : ℕ} (hs : 3 ≤ s) :
    ∀ (n : Node K), Spec.Colourless n → ∀ (v : List (Flt K)) (r : Res K), Spec.GreyImage s v → n.processR E compat s v = .ok r → Spec.GreyImage s r.out
  | .leaf k b, hc, v, r, hv, h => by
    rw [Node.processR] at h
    cases hc with
    | range => exact grey_range _ b hs hv h
    | lut1d a m => exact grey_lut1d _ _ b a m hs hv h
    | lut3d i a m => exact grey_lut3d _ h0 b i a m hs hv h
    | cdl a b' c => exact grey_cdl _ _ compat _ a b' c b hs hv h
    | exposureContrast => exact grey_ec _ _ _ _ _ b hs hv h
    | gamma p => exact grey_gamma _ _ _ p b hs hv h
    | log p => exact grey_log _ _ _ p b hs hv h
  | .group b cs, hc, v, r, hv, h => by
    rw [Node.processR] at h
    cases hc with
    | group hc => exact grey_nodes E h0 compat hs cs hc true none _ _ hv h
  | .ref b w ns, hc, v, r, hv, h => by
    rw [Node.processR] at h
    cases hc with
    | ref hc =>
      obtain ⟨q, hq, h⟩ := py_bind_eq_ok.mp h
      cases h
      exact grey_nodes E h0 compat hs ns hc false none ⟨v.map (E.rounding single), v.map (E.rounding single), true⟩ q (grey_map _ hv) hq
  | .refMissing b w, hc, v, r, hv, h => by
    rw [Node.processR] at h
    cases h
    exact hv

theorem grey_nodes (E : Evaluator K) (h0 : E.rounding double (.fin 0) = .fin 0) (compat : ℕ) {s : ℕ} (hs : 3 ≤ s) :
    ∀ (ns : List (Node K)), (∀ n ∈ ns, Spec.Colourless n) → ∀ (g : Bool) (prev : Option Depth) (q r : Res K), Spec.GreyImage s q.out →
      runNodesR E compat s g prev ns q = .ok r → Spec.GreyImage s r.out
  | [], _, g, prev, q, r, hq, h => by
    rw [runNodesR] at h
    cases h
    exact hq
  | n :: rest, hc, g, prev, q, r, hq, h => by
    unfold runNodesR at h
    have ht := fun q' (hq' : Spec.GreyImage s q'.out) => grey_nodes E h0 compat hs rest (fun m hm => hc m (by simp [hm])) g (some n.outDepth) q' r hq'
    split at h
    · obtain ⟨t, k, h⟩ := py_bind_eq_ok.mp h
      exact ht (q.step t) (grey_node E h0 compat hs n (hc n (by simp)) q.out t hq k) h
    · split at h
      · split_ifs at h
        · obtain ⟨t, k, h⟩ := py_bind_eq_ok.mp h
          exact ht (q.step t) (grey_range (r := t) _ _ hs hq k) h
        · exact ht q hq h
      · exact ht q hq h

end

end CLF
