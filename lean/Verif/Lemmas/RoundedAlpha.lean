import Verif.Lemmas.Loops
import Verif.Lemmas.Cdl
import Verif.Spec.Alpha

/-!
# Colours do not depend on further channels

A pixel function is a *tint* if it maps the first three channels by themselves and hands on the others.
-/

set_option linter.unusedSectionVars false

namespace CLF

variable {K : Type} [Field K] [LinearOrder K] [IsStrictOrderedRing K] [FloorRing K]

/-- The first three channels are mapped by themselves, the others are handed on. -/
def Tint (f : List (Flt K) → Py (List (Flt K))) : Prop :=
  ∃ h : Flt K → Flt K → Flt K → Py (Flt K × Flt K × Flt K),
    ∀ r g b e, f (r :: g :: b :: e) = (h r g b).bind fun c => .ok (c.1 :: c.2.1 :: c.2.2 :: e)

theorem tint_id {f : List (Flt K) → Py (List (Flt K))} (h : ∀ px, f px = .ok px) : Tint f :=
  ⟨fun r g b => .ok (r, g, b), fun _ _ _ _ => h _⟩

theorem tint_chan (f : ℕ → Flt K → Py (Flt K)) : Tint (chanLoop 3 f) :=
  ⟨fun r g b => do let x ← f 0 r; let y ← f 1 g; let z ← f 2 b; pure (x, y, z), fun r g b e => by
    rw [chanLoop3]
    show _ = (do let x ← f 0 r; let y ← f 1 g; let z ← f 2 b; pure (x, y, z) : Py _).bind _
    cases f 0 r <;> [rfl; skip]
    cases f 1 g <;> [rfl; skip]
    cases f 2 b <;> rfl⟩

theorem tint_min (f : ℕ → Flt K → Py (Flt K)) : Tint fun px => chanLoop (min 3 px.length) f px := by
  obtain ⟨h, hh⟩ := tint_chan f
  refine ⟨h, fun r g b e => ?_⟩
  have : min 3 (r :: g :: b :: e).length = 3 := by simp
  simp only [this, hh]

/-- A tint, then something that looks at three channels of the result, then a tint that depends on it. -/
theorem tint_bind {α : Type} {f : List (Flt K) → Py (List (Flt K))} {m : List (Flt K) → Py α} {k : α → List (Flt K) → Py (List (Flt K))}
    (hf : Tint f) (hm : ∀ r g b e, m (r :: g :: b :: e) = m [r, g, b]) (hk : ∀ a, Tint (k a)) :
    Tint (fun px => do let px ← f px; let l ← m px; k l px) := by
  obtain ⟨h, hh⟩ := hf
  choose h' hh' using hk
  refine ⟨fun r g b => do let c ← h r g b; let a ← m [c.1, c.2.1, c.2.2]; h' a c.1 c.2.1 c.2.2, fun r g b e => ?_⟩
  simp only [hh]
  cases h r g b with
  | error e => rfl
  | ok c =>
    show (do let l ← m _; k l _) = _
    rw [hm]
    show _ = (do let a ← m _; h' a _ _ _ : Py _).bind _
    cases m [c.1, c.2.1, c.2.2] with
    | error e => rfl
    | ok a => exact hh' a _ _ _ e

theorem tint_ite {p : Prop} [Decidable p] {f g : List (Flt K) → Py (List (Flt K))} (hf : Tint f) (hg : Tint g) :
    Tint fun px => if p then f px else g px := by
  by_cases h : p <;> simp only [h, if_true, if_false] <;> assumption

/-! ## The nodes -/

theorem lumaR_tint (R : Rounding K) (r g b : Flt K) (e : List (Flt K)) : lumaR R (r :: g :: b :: e) = lumaR R [r, g, b] := rfl

theorem cdl_tint (R : Rounding K) (L : Arith K) (style : AVal) (c : Cdl K) (inD outD : Depth) : Tint (cdlPixelR R L style c inD outD) := by
  unfold cdlPixelR
  refine tint_ite ?_ (tint_ite ?_ (tint_ite ?_ (tint_ite ?_ (tint_id fun _ => rfl))))
  · exact tint_bind (tint_chan _) (lumaR_tint R) fun l => tint_chan _
  · exact tint_bind (tint_chan _) (lumaR_tint R) fun l => tint_chan _
  · exact tint_bind (tint_chan _) (lumaR_tint R) fun l => tint_chan _
  · exact tint_bind (tint_chan _) (lumaR_tint R) fun l => tint_chan _

theorem ec_tint (R : Rounding K) (L : Arith K) (style : AVal) (x c p : Flt K) (inD outD : Depth) : Tint (ecChannelsR R L style x c p inD outD) := by
  unfold ecChannelsR
  exact tint_ite (tint_chan _) (tint_ite (tint_chan _) (tint_ite (tint_chan _) (tint_id fun _ => rfl)))

theorem assign3_tint (R : Rounding K) (c : List (Flt K)) : Tint fun px => assign3R R px c :=
  ⟨fun _ _ _ => match c with
    | [r, g, b] => .ok (R single r, R single g, R single b)
    | [x] => .ok (R single x, R single x, R single x)
    | _ => .error .valueError, fun r g b e => by
    match c with
    | [] => rfl
    | [_] => rfl
    | [_, _] => rfl
    | [_, _, _] => rfl
    | _ :: _ :: _ :: _ :: _ => rfl⟩

theorem corners_tint (R : Rounding K) (a : Arr K) (r g b : Flt K) (e : List (Flt K)) : a.cornersR R (r :: g :: b :: e) = a.cornersR R [r, g, b] := rfl

theorem lut3d_tint (R : Rounding K) (a : Arr K) (interpolation : AVal) (f : ℕ → Flt K → Py (Flt K)) :
    Tint (fun px => do
      let px ← chanLoop (min 3 px.length) f px
      if interpolation = .str "trilinear" then do
        let c ← a.lookup3DTrilinearR R px
        assign3R R px c
      else if interpolation = .str "tetrahedral" then do
        let c ← a.lookup3DTetrahedralR R px
        assign3R R px c
      else pure px) := by
  by_cases h1 : interpolation = .str "trilinear"
  · simp only [h1, if_true]
    exact tint_bind (tint_min _) (fun r g b e => by unfold Arr.lookup3DTrilinearR; rw [corners_tint]) fun c => assign3_tint R c
  · by_cases h2 : interpolation = .str "tetrahedral"
    · simp only [h2, AVal.str.injEq, if_true]
      exact tint_bind (tint_min _) (fun r g b e => by unfold Arr.lookup3DTetrahedralR; rw [corners_tint]) fun c => assign3_tint R c
    · simp only [h1, h2, if_false]
      obtain ⟨h, hh⟩ := tint_min (K := K) f
      refine ⟨h, fun r g b e => ?_⟩
      have := hh r g b e
      simp only [this]
      cases h r g b <;> rfl

theorem matrixRow_tint (R : Rounding K) (t : Fmt) {d0 d1 : ℕ} (hd : d0 ≤ 3) (m : List (Flt K)) (i : ℕ) (r g b : Flt K) (e : List (Flt K)) :
    matrixRowR R t d0 d1 m (r :: g :: b :: e) i = matrixRowR R t d0 d1 m [r, g, b] i := by
  have hv : ∀ j < d0, pyGet (r :: g :: b :: e) j = pyGet [r, g, b] j := by
    intro j hj
    match j, hj with
    | 0, _ => rfl
    | 1, _ => rfl
    | 2, _ => rfl
    | n + 3, h => omega
  have hf : ∀ (l : List ℕ) (acc : Flt K), (∀ j ∈ l, j < d0) →
      (l.foldlM (init := acc) fun acc j => do
        let c ← pyGet m (j + i * d1)
        let v ← pyGet (r :: g :: b :: e) j
        pure (R single (R (t.wider single) (acc + R (t.wider single) (c * v)))) : Py (Flt K)) =
      (l.foldlM (init := acc) fun acc j => do
        let c ← pyGet m (j + i * d1)
        let v ← pyGet [r, g, b] j
        pure (R single (R (t.wider single) (acc + R (t.wider single) (c * v))))) := by
    intro l
    induction l with
    | nil => intros; rfl
    | cons j l ih =>
      intro acc h
      simp only [List.foldlM_cons, hv j (h j (by simp))]
      cases pyGet m (j + i * d1) with
      | error => rfl
      | ok c =>
        simp only [py_ok_bind]
        cases pyGet [r, g, b] j with
        | error => rfl
        | ok v => exact ih _ fun k hk => h k (by simp [hk])
  unfold matrixRowR
  simp only [hf _ _ fun j hj => List.mem_range.mp hj]

theorem matrix_tint (R : Rounding K) (t : Fmt) (a : Arr K) (ha : ∀ d, pyGet a.dims 0 = .ok d → d ≤ 3) :
    Tint (fun value => do
      let d0 ← pyGet a.dims 0
      let rows ← (List.range (min d0 value.length)).mapM fun i => do
        let d1 ← pyGet a.dims 1
        matrixRowR R t d0 d1 a.values value i
      pure (rows ++ value.drop (min d0 value.length))) := by
  cases h0 : pyGet a.dims 0 with
  | error x => exact ⟨fun _ _ _ => .error x, fun _ _ _ _ => rfl⟩
  | ok d =>
    have hd := ha d h0
    have key : ∀ r g b e, (do
        let rows ← (List.range (min d (r :: g :: b :: e).length)).mapM fun i => do
          let d1 ← pyGet a.dims 1
          matrixRowR R t d d1 a.values (r :: g :: b :: e) i
        pure (rows ++ (r :: g :: b :: e).drop (min d (r :: g :: b :: e).length)) : Py _) =
        (do let rows ← (List.range d).mapM fun i => do
              let d1 ← pyGet a.dims 1
              matrixRowR R t d d1 a.values [r, g, b] i
            pure (rows ++ ([r, g, b].drop d ++ e)) : Py _) := by
      intro r g b e
      have hm : min d (r :: g :: b :: e).length = d := by simp only [List.length_cons]; omega
      simp only [hm, matrixRow_tint R t hd]
      congr 1
      funext rows
      congr 2
      rw [show r :: g :: b :: e = [r, g, b] ++ e from rfl, List.drop_append_of_le_length (by simpa using hd)]
    refine ⟨fun r g b => do
      let rows ← (List.range d).mapM fun i => do
        let d1 ← pyGet a.dims 1
        matrixRowR R t d d1 a.values [r, g, b] i
      match rows ++ [r, g, b].drop d with
      | [x, y, z] => pure (x, y, z)
      | _ => .error .valueError, fun r g b e => ?_⟩
    show (do
        let rows ← (List.range (min d (r :: g :: b :: e).length)).mapM fun i => do
          let d1 ← pyGet a.dims 1
          matrixRowR R t d d1 a.values (r :: g :: b :: e) i
        pure (rows ++ (r :: g :: b :: e).drop (min d (r :: g :: b :: e).length)) : Py _) = _
    rw [key]
    beta_reduce
    cases hr : (List.range d).mapM fun i => (do
              let d1 ← pyGet a.dims 1
              matrixRowR R t d d1 a.values [r, g, b] i : Py _) with
    | error => rfl
    | ok rows =>
      have hl : rows.length = d := by
        have := py_mapM_length hr
        simpa using this
      show (.ok (rows ++ ([r, g, b].drop d ++ e)) : Py _) = _
      have h3 : (rows ++ [r, g, b].drop d).length = 3 := by
        simp only [List.length_append, List.length_drop, List.length_cons, List.length_nil]; omega
      obtain ⟨x, y, z, hx⟩ := List.length_eq_three.mp h3
      rw [← List.append_assoc, hx]
      simp only [py_ok_bind, hx]
      rfl

/-! ## Loops over pixels -/

/-- Two results that fail alike, or one of which shows the colours of the other; with `keep` the further channels are as before. -/
def Agree (s : ℕ) (keep : Prop) (pixels : List (List (Flt K))) (x y : Py (Res K)) : Prop :=
  (∃ e, x = .error e ∧ y = .error e) ∨
  ∃ (outs : List (List (Flt K))) (r r' : Res K), outs.length = pixels.length ∧ (∀ p ∈ outs, p.length = s) ∧ x = .ok r ∧ y = .ok r' ∧
    r.out = outs.flatten ∧ r'.out = (outs.map (·.take 3)).flatten ∧ (keep → outs.map (·.drop 3) = pixels.map (·.drop 3))

/-- What `F` makes of a pixel with `s` channels shows what `G` makes of its colour. -/
def Tints (s : ℕ) (T : List (Flt K) → List (Flt K)) (F G : List (Flt K) → Py (List (Flt K))) : Prop :=
  ∃ (h : Flt K → Flt K → Flt K → Py (Flt K × Flt K × Flt K)),
    (∀ e, e.length + 3 = s → (T e).length + 3 = s) ∧
    (∀ r g b e, e.length + 3 = s → F (r :: g :: b :: e) = (h r g b).bind fun c => .ok (c.1 :: c.2.1 :: c.2.2 :: T e)) ∧
    ∀ r g b, G [r, g, b] = (h r g b).bind fun c => .ok [c.1, c.2.1, c.2.2]

theorem Tint.both {f : List (Flt K) → Py (List (Flt K))} (hf : Tint f) (s : ℕ) : Tints s id f f := by
  obtain ⟨h, hh⟩ := hf
  exact ⟨h, fun _ h => h, fun r g b e _ => hh r g b e, fun r g b => hh r g b []⟩

theorem split3 {s : ℕ} (hs : 3 ≤ s) {p : List (Flt K)} (hp : p.length = s) : ∃ r g b e, p = r :: g :: b :: e ∧ e.length + 3 = s := by
  match p, hp with
  | r :: g :: b :: e, h => exact ⟨r, g, b, e, rfl, by simpa using h⟩
  | [], h => simp at h; omega
  | [_], h => simp at h; omega
  | [_, _], h => simp at h; omega

theorem mapM_tint {s : ℕ} {T : List (Flt K) → List (Flt K)} {F G : List (Flt K) → Py (List (Flt K))} (hf : Tints s T F G) (hs : 3 ≤ s) (pixels : List (List (Flt K)))
    (hp : ∀ p ∈ pixels, p.length = s) :
    (∃ e, pixels.mapM F = .error e ∧ (pixels.map (·.take 3)).mapM G = .error e) ∨
    ∃ outs : List (List (Flt K)), outs.length = pixels.length ∧ (∀ p ∈ outs, p.length = s) ∧ pixels.mapM F = .ok outs ∧
      (pixels.map (·.take 3)).mapM G = .ok (outs.map (·.take 3)) ∧ outs.map (·.drop 3) = pixels.map fun p => T (p.drop 3) := by
  obtain ⟨h, hT, hF, hG⟩ := hf
  induction pixels with
  | nil => exact .inr ⟨[], rfl, by simp, rfl, rfl, rfl⟩
  | cons p ps ih =>
    obtain ⟨r, g, b, e, rfl, he⟩ := split3 hs (hp p (by simp))
    have ih := ih fun q hq => hp q (List.mem_cons_of_mem _ hq)
    simp only [List.map_cons, List.mapM_cons, List.take_succ_cons, List.take_zero, hF _ _ _ _ he, hG]
    cases h r g b with
    | error x => exact .inl ⟨x, rfl, rfl⟩
    | ok c =>
      rcases ih with ⟨x, k1, k2⟩ | ⟨outs, k1, k2, k3, k4, k5⟩
      · exact .inl ⟨x, by rw [k1]; rfl, by rw [k2]; rfl⟩
      · refine .inr ⟨(c.1 :: c.2.1 :: c.2.2 :: T e) :: outs, by simp [k1], ?_, by rw [k3]; rfl, by rw [k4]; rfl, by simp [k5]⟩
        intro q hq
        rcases List.mem_cons.mp hq with rfl | hq
        · simpa using hT e he
        · exact k2 q hq

theorem take3_length {s : ℕ} (hs : 3 ≤ s) {pixels : List (List (Flt K))} (hp : ∀ p ∈ pixels, p.length = s) :
    ∀ p ∈ pixels.map (·.take 3), p.length = 3 := by
  intro p hp'
  obtain ⟨q, hq, rfl⟩ := List.mem_map.mp hp'
  rw [List.length_take, hp q hq]; omega

/-- A loop over pixels that stores the result of `f`, and `k` in the array it was given. -/
theorem loop_mapM {f : List (Flt K) → Py (List (Flt K))} (k : List (Flt K) → List (Flt K) → List (Flt K))
    (hk : ∀ px o, o.length = px.length → (k px o).length = px.length) {s : ℕ} (hs : 3 ≤ s) (cs : List (List (Flt K)))
    (hp : ∀ p ∈ cs, p.length = s) (hf : ∀ p ∈ cs, ∀ o, f p = .ok o → o.length = s) :
    (∀ e, cs.mapM f = .error e → (pixelLoop s cs.flatten fun _ px => do let o ← f px; pure (k px o, o)) = .error e) ∧
    ∀ outs, cs.mapM f = .ok outs → ∃ r, (pixelLoop s cs.flatten fun _ px => do let o ← f px; pure (k px o, o)) = .ok r ∧ r.out = outs.flatten := by
  have h := pixelLoop_chunks s (by omega) (fun px => do let o ← f px; pure (k px o, o)) cs [] hp (by simp; omega) (by
    intro c hc v o h
    cases hfc : f c with
    | error => simp only [hfc] at h; cases h
    | ok w =>
      simp only [hfc] at h
      cases h
      have := hf c hc _ hfc
      exact ⟨by rw [hk _ _ (this.trans (hp c hc).symm), hp c hc], this⟩)
  rw [List.append_nil] at h
  rw [h]
  have hm : ∀ cs : List (List (Flt K)), (cs.mapM fun px => (do let o ← f px; pure (k px o, o) : Py _)) =
      (cs.mapM f).bind fun os => .ok (List.zipWith (fun px o => (k px o, o)) cs os) := by
    intro cs
    induction cs with
    | nil => rfl
    | cons c cs ih =>
      rw [List.mapM_cons, List.mapM_cons, ih]
      cases f c with
      | error => rfl
      | ok o => cases cs.mapM f <;> rfl
  rw [hm]
  refine ⟨fun e he => by rw [he]; rfl, fun outs ho => ?_⟩
  rw [ho]
  refine ⟨_, rfl, ?_⟩
  have hlen : outs.length = cs.length := py_mapM_length ho
  simp only [List.length_nil, List.replicate_zero, List.append_nil]
  congr 1
  clear * - hlen
  induction cs generalizing outs with
  | nil => simp at hlen; simp [hlen]
  | cons c cs ih =>
    cases outs with
    | nil => simp at hlen
    | cons o os => simp only [List.zipWith_cons_cons, List.map_cons]; rw [ih os (by simpa using hlen)]

theorem loop_tint {s : ℕ} {keep : Prop} {T : List (Flt K) → List (Flt K)} {F G : List (Flt K) → Py (List (Flt K))} (hf : Tints s T F G) (hT : keep → T = id) (k : List (Flt K) → List (Flt K) → List (Flt K))
    (hk : ∀ px o, o.length = px.length → (k px o).length = px.length) (hs : 3 ≤ s) (pixels : List (List (Flt K)))
    (hp : ∀ p ∈ pixels, p.length = s) :
    Agree s keep pixels (pixelLoop s pixels.flatten fun _ px => do let o ← F px; pure (k px o, o))
      (pixelLoop 3 (pixels.map (·.take 3)).flatten fun _ px => do let o ← G px; pure (k px o, o)) := by
  have hp3 := take3_length hs hp
  have a := loop_mapM (f := F) k hk hs pixels hp (by
    obtain ⟨h, hT, hF, _⟩ := hf
    intro p hpm o ho
    obtain ⟨r, g, b, e, rfl, he⟩ := split3 hs (hp p hpm)
    rw [hF _ _ _ _ he] at ho
    cases hc : h r g b with
    | error => rw [hc] at ho; cases ho
    | ok c => rw [hc] at ho; cases ho; simpa using hT e he)
  have b := loop_mapM (f := G) k hk le_rfl (pixels.map (·.take 3)) hp3 (by
    obtain ⟨h, _, _, hG⟩ := hf
    intro p hpm o ho
    obtain ⟨r, g, b, e, rfl, he⟩ := split3 le_rfl (hp3 p hpm)
    obtain rfl : e = [] := List.length_eq_zero_iff.mp (by omega)
    rw [hG] at ho
    cases hc : h r g b with
    | error => rw [hc] at ho; cases ho
    | ok c => rw [hc] at ho; cases ho; rfl)
  rcases mapM_tint hf hs pixels hp with ⟨e, k1, k2⟩ | ⟨outs, k1, k2, k3, k4, k5⟩
  · exact .inl ⟨e, a.1 e k1, b.1 e k2⟩
  · obtain ⟨r, r1, r2⟩ := a.2 _ k3
    obtain ⟨r', r1', r2'⟩ := b.2 _ k4
    exact .inr ⟨outs, r, r', k1, k2, r1, r1', r2, r2', fun hk => by rw [k5, hT hk]; rfl⟩

theorem view_tint {f : List (Flt K) → Py (List (Flt K))} (hf : Tint f) {s : ℕ} (hs : 3 ≤ s) (pixels : List (List (Flt K)))
    (hp : ∀ p ∈ pixels, p.length = s) :
    Agree s True pixels (viewLoop s pixels.flatten f) (viewLoop 3 (pixels.map (·.take 3)).flatten f) :=
  loop_tint (hf.both s) (fun _ => rfl) (fun _ o => o) (fun _ _ h => h) hs pixels hp

/-! ## Exposure and contrast

The node takes the further channels of every pixel from the start of the array. -/

theorem foldlM_same {σ α : Type} {f g : σ → α → Py σ} (I : σ → Prop) (l : List α) :
    ∀ st, I st → (∀ st, I st → ∀ a ∈ l, f st a = g st a ∧ ∀ st', f st a = .ok st' → I st') → l.foldlM f st = l.foldlM g st := by
  induction l with
  | nil => intros; rfl
  | cons a l ih =>
    intro st hI h
    obtain ⟨h1, h2⟩ := h st hI a (by simp)
    rw [List.foldlM_cons, List.foldlM_cons, ← h1]
    cases hf : f st a with
    | error => rfl
    | ok st' => exact ih st' (h2 st' hf) fun st hI b hb => h st hI b (by simp [hb])

theorem ec_same (f : List (Flt K) → Py (List (Flt K))) (hf : Tint f) {s : ℕ} (hs : 3 ≤ s) (pixels : List (List (Flt K))) (hp : ∀ p ∈ pixels, p.length = s) :
    pixelLoop s pixels.flatten (fun vals px => do
      let px' ← f px
      let o := px'.take 3 ++ pySlice vals (min 3 px.length) px.length
      pure (o, o)) =
    pixelLoop s pixels.flatten (fun _ px => do
      let o ← (do let px' ← f px; pure (px'.take 3 ++ pySlice pixels.flatten 3 s))
      pure (o, o)) := by
  have hlen : pixels.flatten.length = pixels.length * s := by
    have h1 : pixels.map List.length = List.replicate pixels.length s := by
      rw [List.eq_replicate_iff]
      exact ⟨by simp, by simpa using hp⟩
    rw [List.length_flatten, h1]; simp
  rw [pixelLoop_def, pixelLoop_def]
  have hs0 : s ≠ 0 := by omega
  simp only [hs0, if_false, pyDivNat, hlen, Nat.mul_div_cancel _ (show 0 < s by omega), py_ok_bind]
  congr 1
  refine foldlM_same (fun st => st.1.length = pixels.length * s ∧ pySlice st.1 3 s = pySlice pixels.flatten 3 s) _ _ ⟨hlen, rfl⟩ ?_
  rintro ⟨vals, out⟩ ⟨hv, he⟩ p hpm
  have hpn := List.mem_range.mp hpm
  simp only at hv he
  have hps : p * s + s ≤ pixels.length * s := by rw [← Nat.succ_mul]; exact Nat.mul_le_mul_right s hpn
  have hpx : (pySlice vals (p * s) ((p + 1) * s)).length = s := by
    unfold pySlice
    rw [List.length_take, List.length_drop, hv, Nat.succ_mul, Nat.add_sub_cancel_left]; omega
  have hel : (pySlice pixels.flatten 3 s).length = s - 3 := by
    unfold pySlice
    rw [List.length_take, List.length_drop, hlen]; omega
  unfold pixelStep
  simp only [hpx, min_eq_left hs, he]
  cases hfp : f (pySlice vals (p * s) ((p + 1) * s)) with
  | error => exact ⟨rfl, fun st' h => by cases h⟩
  | ok o =>
    refine ⟨rfl, fun st' h => ?_⟩
    cases h
    have ho : o.length = s := by
      obtain ⟨k, hk⟩ := hf
      obtain ⟨r, g, b, e, hpe, he⟩ := split3 hs hpx
      rw [hpe, hk] at hfp
      cases hc : k r g b with
      | error => rw [hc] at hfp; cases hfp
      | ok c => rw [hc] at hfp; cases hfp; simpa using he
    have ht : (o.take 3).length = 3 := by rw [List.length_take, ho]; omega
    have hol : (o.take 3 ++ pySlice pixels.flatten 3 s).length = s := by rw [List.length_append, ht, hel]; omega
    generalize hw : o.take 3 ++ pySlice pixels.flatten 3 s = w at hol
    have hwd : w.drop 3 = pySlice pixels.flatten 3 s := by rw [← hw, List.drop_left' ht]
    show (pySplice vals (p * s) w).length = _ ∧ pySlice (pySplice vals (p * s) w) 3 s = _
    unfold pySplice
    have htk : (vals.take (p * s)).length = p * s := by rw [List.length_take, hv]; omega
    constructor
    · simp only [List.length_append, htk, List.length_drop, hv, hol]; omega
    · rcases Nat.eq_zero_or_pos p with rfl | hp0
      · simp only [Nat.zero_mul, List.take_zero, List.nil_append]
        unfold pySlice at hwd ⊢
        rw [List.drop_append_of_le_length (by omega), hwd, List.take_left']
        rw [← hwd, List.length_drop, hol]
      · have hsp : s ≤ p * s := Nat.le_mul_of_pos_left s hp0
        rw [← he]
        unfold pySlice
        rw [List.append_assoc, List.drop_append_of_le_length (by omega), List.take_append_of_le_length (by rw [List.length_drop, htk]; omega),
          List.drop_take, List.take_take, min_eq_left (by omega)]

theorem ec_agree (f : List (Flt K) → Py (List (Flt K))) (hf : Tint f) {s : ℕ} (hs : 3 ≤ s) (pixels : List (List (Flt K))) (hp : ∀ p ∈ pixels, p.length = s) :
    Agree s False pixels (pixelLoop s pixels.flatten (fun vals px => do
        let px' ← f px
        let o := px'.take 3 ++ pySlice vals (min 3 px.length) px.length
        pure (o, o)))
      (pixelLoop 3 (pixels.map (·.take 3)).flatten (fun vals px => do
        let px' ← f px
        let o := px'.take 3 ++ pySlice vals (min 3 px.length) px.length
        pure (o, o))) := by
  rw [ec_same f hf hs pixels hp, ec_same f hf le_rfl _ (take3_length hs hp)]
  by_cases h0 : pixels = []
  · subst h0
    refine .inr ⟨[], ⟨[], [], false⟩, ⟨[], [], false⟩, rfl, by simp, ?_, ?_, rfl, rfl, False.elim⟩ <;> rw [pixelLoop_def]
    · simp [pyDivNat, show s ≠ 0 by omega]
    · simp [pyDivNat]
  refine loop_tint (T := fun _ => pySlice pixels.flatten 3 s) (F := fun px => do let px' ← f px; pure (px'.take 3 ++ pySlice pixels.flatten 3 s))
    (G := fun px => do let px' ← f px; pure (px'.take 3 ++ pySlice (pixels.map (·.take 3)).flatten 3 3)) ?_ False.elim (fun _ o => o) (fun _ _ h => h) hs pixels hp
  obtain ⟨h, hh⟩ := hf
  refine ⟨h, fun e he => ?_, fun r g b e he => ?_, fun r g b => ?_⟩
  · obtain ⟨p, ps, rfl⟩ := List.exists_cons_of_ne_nil h0
    have := hp p (by simp)
    unfold pySlice
    rw [List.length_take, List.length_drop, List.flatten_cons, List.length_append, this]
    omega
  · simp only [hh]
    cases h r g b <;> rfl
  · simp only [hh]
    unfold pySlice
    cases h r g b <;> simp [pure, Except.pure, bind, Except.bind]

/-! ## Ranges -/

theorem flat_agree {s : ℕ} (g : Flt K → Flt K) (pixels : List (List (Flt K))) (hp : ∀ p ∈ pixels, p.length = s) :
    ∃ outs : List (List (Flt K)), outs.length = pixels.length ∧ (∀ p ∈ outs, p.length = s) ∧ pixels.flatten.map g = outs.flatten ∧
      (pixels.map (·.take 3)).flatten.map g = (outs.map (·.take 3)).flatten := by
  refine ⟨pixels.map (·.map g), by simp, ?_, ?_, ?_⟩
  · intro p hpm
    obtain ⟨q, hq, rfl⟩ := List.mem_map.mp hpm
    rw [List.length_map, hp q hq]
  · rw [List.map_flatten]
  · rw [List.map_flatten, List.map_map, List.map_map]
    congr 1
    refine List.map_congr_left fun p _ => ?_
    simp [List.map_take]

theorem rangeStep_cases (R : Rounding K) (inD outD : Depth) (clampOn : Bool) (a b c d : Option (Flt K)) :
    (∃ e, ∀ x, rangeStepR R inD outD clampOn a b c d x = .error e) ∨ ∃ g : Flt K → Flt K, ∀ x, rangeStepR R inD outD clampOn a b c d x = .ok (g x) := by
  unfold rangeStepR
  rcases a with _ | a <;> rcases b with _ | b <;> rcases c with _ | c <;> rcases d with _ | d
  case some.some.some.some =>
    simp only
    cases pyDivF (R double (d - c)) (R double (b - a)) with
    | error e => exact .inl ⟨e, fun x => rfl⟩
    | ok q => exact .inr ⟨_, fun x => rfl⟩
  all_goals exact .inr ⟨_, fun x => rfl⟩

theorem range_agree (R : Rounding K) (b : Base K) {s : ℕ} (hs : 3 ≤ s) (pixels : List (List (Flt K))) (hp : ∀ p ∈ pixels, p.length = s) :
    Agree s False pixels (rangeProcessR R b pixels.flatten) (rangeProcessR R b (pixels.map (·.take 3)).flatten) := by
  unfold rangeProcessR
  cases b.attrE "inBitDepth" with
  | error e => exact .inl ⟨e, rfl, rfl⟩
  | ok inD =>
    cases b.attrE "outBitDepth" with
    | error e => exact .inl ⟨e, rfl, rfl⟩
    | ok outD =>
      simp only [py_ok_bind, chanLoop_const]
      generalize hf : rangeStepR R inD outD _ _ _ _ _ = f
      have hc : (∃ e, ∀ x, f x = .error e) ∨ ∃ g : Flt K → Flt K, ∀ x, f x = .ok (g x) := by
        rw [← hf]
        exact rangeStep_cases ..
      clear hf
      rcases hc with ⟨e, he⟩ | ⟨g, hg⟩
      · by_cases h0 : pixels = []
        · subst h0
          exact .inr ⟨[], _, _, rfl, by simp, rfl, rfl, rfl, rfl, False.elim⟩
        · obtain ⟨p, ps, rfl⟩ := List.exists_cons_of_ne_nil h0
          obtain ⟨r, g, b, e', rfl, _⟩ := split3 hs (hp p (by simp))
          refine .inl ⟨e, ?_, ?_⟩
          · simp only [List.flatten_cons, List.cons_append, List.mapM_cons, he]; rfl
          · simp only [List.map_cons, List.take_succ_cons, List.flatten_cons, List.cons_append, List.mapM_cons, he]; rfl
      · obtain ⟨outs, k1, k2, k3, k4⟩ := flat_agree g pixels hp
        rw [py_mapM_ok f g _ fun a _ => hg a, py_mapM_ok f g _ fun a _ => hg a]
        exact .inr ⟨outs, _, _, k1, k2, rfl, rfl, k3, k4, False.elim⟩

/-! ## Nodes and lists -/

theorem Agree.weaken {s : ℕ} {p q : Prop} {pixels : List (List (Flt K))} {x y : Py (Res K)} (h : Agree s p pixels x y) (hq : q → p) :
    Agree s q pixels x y := by
  rcases h with h | ⟨outs, r, r', h1, h2, h3, h4, h5, h6, h7⟩
  · exact .inl h
  · exact .inr ⟨outs, r, r', h1, h2, h3, h4, h5, h6, fun k => h7 (hq k)⟩

theorem agree_error {s : ℕ} {p : Prop} {pixels : List (List (Flt K))} (e : PyErr) : Agree s p pixels (.error e) (.error e) := .inl ⟨e, rfl, rfl⟩

theorem leaf_agree (E : Evaluator K) (compat : ℕ) (k : Kind K) (b : Base K) (hm : Spec.SmallMatrix k b) {s : ℕ} (hs : 3 ≤ s) (pixels : List (List (Flt K)))
    (hp : ∀ p ∈ pixels, p.length = s) :
    Agree s (Spec.LeavesAlpha k) pixels (leafProcessR E compat k b pixels.flatten s) (leafProcessR E compat k b (pixels.map (·.take 3)).flatten 3) := by
  unfold leafProcessR
  cases k with
  | range => exact range_agree _ _ hs pixels hp
  | matrix =>
    show Agree s _ pixels (matrixProcessR ..) (matrixProcessR ..)
    unfold matrixProcessR
    cases b.attrE "inBitDepth" with
    | error e => exact agree_error e
    | ok inD =>
      cases b.attrE "outBitDepth" with
      | error e => exact agree_error e
      | ok outD =>
        cases hb : b.array with
        | error e => exact agree_error e
        | ok a =>
          simp only [py_ok_bind]
          have ha : ∀ d, pyGet a.dims 0 = .ok d → d ≤ 3 := by
            intro d hd
            refine hm a d hb ?_
            unfold pyGet at hd
            split at hd
            · next x hx => cases hd; exact hx
            · cases hd
          have h := loop_tint (keep := True) ((matrix_tint E.rounding (E.table b) a ha).both s) (fun _ => rfl) (fun px _ => px) (fun _ _ _ => rfl) hs pixels hp
          refine Agree.weaken (p := True) ?_ fun _ => trivial
          have hbody : (fun (_ : List (Flt K)) (value : List (Flt K)) => (do
              let d0 ← pyGet a.dims 0
              let rows ← (List.range (min d0 value.length)).mapM fun i => do
                let d1 ← pyGet a.dims 1
                matrixRowR E.rounding (E.table b) d0 d1 a.values value i
              pure (value, rows ++ value.drop (min d0 value.length)) : Py _)) =
            fun _ value => (do
              let o ← (do
                let d0 ← pyGet a.dims 0
                let rows ← (List.range (min d0 value.length)).mapM fun i => do
                  let d1 ← pyGet a.dims 1
                  matrixRowR E.rounding (E.table b) d0 d1 a.values value i
                pure (rows ++ value.drop (min d0 value.length)))
              pure (value, o)) := by
            funext _ value
            simp only [bind_assoc, pure_bind]
          rw [hbody]
          exact h
  | lut1d =>
    show Agree s _ pixels (lut1dProcessR ..) (lut1dProcessR ..)
    unfold lut1dProcessR
    cases b.attrE "inBitDepth" with
    | error e => exact agree_error e
    | ok inD =>
      cases b.attrE "outBitDepth" with
      | error e => exact agree_error e
      | ok outD =>
        cases b.array with
        | error e => exact agree_error e
        | ok a => exact (view_tint (tint_min _) hs pixels hp).weaken fun _ => trivial
  | lut3d =>
    show Agree s _ pixels (lut3dProcessR ..) (lut3dProcessR ..)
    unfold lut3dProcessR
    cases b.attrE "inBitDepth" with
    | error e => exact agree_error e
    | ok inD =>
      cases b.attrE "outBitDepth" with
      | error e => exact agree_error e
      | ok outD =>
        cases b.array with
        | error e => exact agree_error e
        | ok a => exact (view_tint (lut3d_tint _ a _ _) hs pixels hp).weaken fun _ => trivial
  | cdl _ v =>
    show Agree s _ pixels (cdlProcessR ..) (cdlProcessR ..)
    unfold cdlProcessR
    simp only [show s ≠ 0 by omega, if_false, show ¬ s < 3 by omega, show (3 : ℕ) ≠ 0 by omega, show ¬ (3 : ℕ) < 3 by omega]
    cases b.attrE "inBitDepth" with
    | error e => exact agree_error e
    | ok inD =>
      cases b.attrE "outBitDepth" with
      | error e => exact agree_error e
      | ok outD =>
        simp only [py_ok_bind]
        split_ifs
        · exact agree_error _
        · exact (view_tint (cdl_tint ..) hs pixels hp).weaken fun _ => trivial
  | exposureContrast x c p =>
    show Agree s _ pixels (ecProcessR ..) (ecProcessR ..)
    unfold ecProcessR
    cases b.attrE "inBitDepth" with
    | error e => exact agree_error e
    | ok inD =>
      cases b.attrE "outBitDepth" with
      | error e => exact agree_error e
      | ok outD => exact ec_agree _ (ec_tint ..) hs pixels hp
  | gamma ps =>
    show Agree s _ pixels (gammaProcessR ..) (gammaProcessR ..)
    unfold gammaProcessR
    cases b.attrE "inBitDepth" with
    | error e => exact agree_error e
    | ok inD =>
      cases b.attrE "outBitDepth" with
      | error e => exact agree_error e
      | ok outD =>
        cases gammaParams ps with
        | error e => exact agree_error e
        | ok params =>
          simp only [py_ok_bind]
          refine (view_tint ?_ hs pixels hp).weaken fun _ => trivial
          cases gammaStyleR E.rounding E.library (b.styleOf "style") with
          | none => exact tint_id fun _ => rfl
          | some f => exact tint_chan _
  | log ps =>
    show Agree s _ pixels (logProcessR ..) (logProcessR ..)
    unfold logProcessR
    cases b.attrE "inBitDepth" with
    | error e => exact agree_error e
    | ok inD =>
      cases b.attrE "outBitDepth" with
      | error e => exact agree_error e
      | ok outD =>
        cases logParamsR E.rounding ps with
        | error e => exact agree_error e
        | ok params =>
          simp only [py_ok_bind]
          refine (view_tint ?_ hs pixels hp).weaken fun _ => trivial
          cases logStyleR E.rounding E.library (b.styleOf "style") with
          | none => exact tint_id fun _ => rfl
          | some f => exact tint_chan _
  | plain => exact agree_error _

theorem KeepsAlpha.bypass {n : Node K} (h : Spec.KeepsAlpha n) : n.attr "bypass" = none := by
  cases h <;> assumption

/-- Further channels that a copy leaves alone. -/
def AlphaFits (R : Rounding K) (pixels : List (List (Flt K))) : Prop := ∀ p ∈ pixels, ∀ x ∈ p.drop 3, R single x = x

theorem alphaFits_of_drop {R : Rounding K} {ps qs : List (List (Flt K))} (h : ps.map (·.drop 3) = qs.map (·.drop 3)) (hq : AlphaFits R qs) : AlphaFits R ps := by
  intro p hp
  have : p.drop 3 ∈ qs.map (·.drop 3) := h ▸ List.mem_map_of_mem hp
  obtain ⟨q, hq', he⟩ := List.mem_map.mp this
  rw [← he]
  exact hq q hq'

theorem copy_agree (R : Rounding K) {s : ℕ} (pixels : List (List (Flt K))) (hp : ∀ p ∈ pixels, p.length = s) :
    ∃ outs : List (List (Flt K)), outs.length = pixels.length ∧ (∀ p ∈ outs, p.length = s) ∧ pixels.flatten.map (R single) = outs.flatten ∧
      (pixels.map (·.take 3)).flatten.map (R single) = (outs.map (·.take 3)).flatten ∧ (AlphaFits R pixels → outs.map (·.drop 3) = pixels.map (·.drop 3)) := by
  obtain ⟨k1, k2, k3, k4⟩ : (pixels.map (·.map (R single))).length = pixels.length ∧ (∀ p ∈ pixels.map (·.map (R single)), p.length = s) ∧
      pixels.flatten.map (R single) = (pixels.map (·.map (R single))).flatten ∧
      (pixels.map (·.take 3)).flatten.map (R single) = ((pixels.map (·.map (R single))).map (·.take 3)).flatten := by
    refine ⟨by simp, ?_, by rw [List.map_flatten], ?_⟩
    · intro p hpm
      obtain ⟨q, hq, rfl⟩ := List.mem_map.mp hpm
      rw [List.length_map, hp q hq]
    · rw [List.map_flatten, List.map_map, List.map_map]
      congr 1
      refine List.map_congr_left fun p _ => ?_
      simp [List.map_take]
  refine ⟨_, k1, k2, k3, k4, fun h => ?_⟩
  rw [List.map_map]
  refine List.map_congr_left fun p hpm => ?_
  simp only [Function.comp_apply, ← List.map_drop]
  exact (List.map_congr_left fun x hx => h p hpm x hx).trans (List.map_id _)

/-- Agreement carries over to what comes next. -/
theorem Agree.bind {s : ℕ} {P Q : Prop} {pixels : List (List (Flt K))} {x y : Py (Res K)} {f f' : Res K → Py (Res K)} (h : Agree s P pixels x y)
    (hf : ∀ (outs : List (List (Flt K))) (r r' : Res K), (∀ p ∈ outs, p.length = s) → r.out = outs.flatten → r'.out = (outs.map (·.take 3)).flatten →
      Agree s ((P ∧ Q) ∧ outs.map (·.drop 3) = pixels.map (·.drop 3)) outs (f r) (f' r')) :
    Agree s (P ∧ Q) pixels (x >>= f) (y >>= f') := by
  rcases h with ⟨e, rfl, rfl⟩ | ⟨outs, r, r', h1, h2, rfl, rfl, h5, h6, h7⟩
  · exact agree_error e
  · rcases hf outs r r' h2 h5 h6 with ⟨e, k1, k2⟩ | ⟨outs', q, q', k1, k2, k3, k4, k5, k6, k7⟩
    · exact .inl ⟨e, k1, k2⟩
    · exact .inr ⟨outs', q, q', k1.trans h1, k2, k3, k4, k5, k6, fun hk => (k7 ⟨hk, h7 hk.1⟩).trans (h7 hk.1)⟩

theorem agree_same {s : ℕ} {P : Prop} {pixels : List (List (Flt K))} (hp : ∀ p ∈ pixels, p.length = s) {r r' : Res K} (h : r.out = pixels.flatten)
    (h' : r'.out = (pixels.map (·.take 3)).flatten) : Agree s P pixels (.ok r) (.ok r') :=
  .inr ⟨pixels, r, r', rfl, hp, rfl, rfl, h, h', fun _ => rfl⟩

mutual

theorem node_agree (E : Evaluator K) (compat : ℕ) {s : ℕ} (hs : 3 ≤ s) : ∀ (n : Node K), Spec.Colours n → ∀ pixels : List (List (Flt K)), (∀ p ∈ pixels, p.length = s) →
    Agree s (Spec.KeepsAlpha n ∧ AlphaFits E.rounding pixels) pixels (n.processR E compat s pixels.flatten) (n.processR E compat 3 (pixels.map (·.take 3)).flatten)
  | .leaf k b, hc, pixels, hp => by
    rw [Node.processR, Node.processR]
    cases hc with
    | leaf h => exact (leaf_agree E compat k b h hs pixels hp).weaken fun h => by cases h.1; assumption
  | .group b cs, hc, pixels, hp => by
    rw [Node.processR, Node.processR]
    cases hc with
    | group h => exact (nodes_agree E compat hs cs h true none pixels hp _ _ rfl rfl).weaken fun h => ⟨by cases h.1; assumption, h.2⟩
  | .ref b w ns, hc, pixels, hp => by
    rw [Node.processR, Node.processR]
    cases hc with
    | ref h =>
      obtain ⟨outs, k1, k2, k3, k4, k5⟩ := copy_agree E.rounding pixels hp
      simp only [k3, k4]
      rcases nodes_agree E compat hs ns h false none outs k2 ⟨outs.flatten, outs.flatten, true⟩ ⟨(outs.map (·.take 3)).flatten, (outs.map (·.take 3)).flatten, true⟩ rfl rfl with
        ⟨e, r1, r2⟩ | ⟨outs', q, q', r1, r2, r3, r4, r5, r6, r7⟩
      · exact .inl ⟨e, by simp only [r1]; rfl, by simp only [r2]; rfl⟩
      · refine .inr ⟨outs', ⟨q.out, pixels.flatten, false⟩, ⟨q'.out, (pixels.map (·.take 3)).flatten, false⟩, r1.trans k1, r2, by simp only [r3]; rfl, by simp only [r4]; rfl, r5, r6, fun hk => ?_⟩
        obtain ⟨hk, hf⟩ := hk
        exact (r7 ⟨by cases hk; assumption, alphaFits_of_drop (k5 hf) hf⟩).trans (k5 hf)
  | .refMissing b w, hc, pixels, hp => by
    rw [Node.processR, Node.processR]
    exact agree_same hp rfl rfl

theorem nodes_agree (E : Evaluator K) (compat : ℕ) {s : ℕ} (hs : 3 ≤ s) : ∀ (ns : List (Node K)), (∀ n ∈ ns, Spec.Colours n) → ∀ (g : Bool) (prev : Option Depth)
    (pixels : List (List (Flt K))), (∀ p ∈ pixels, p.length = s) → ∀ r r' : Res K, r.out = pixels.flatten → r'.out = (pixels.map (·.take 3)).flatten →
    Agree s ((∀ n ∈ ns, Spec.KeepsAlpha n) ∧ AlphaFits E.rounding pixels) pixels (runNodesR E compat s g prev ns r) (runNodesR E compat 3 g prev ns r')
  | [], _, g, prev, pixels, hp, r, r', hr, hr' => by
    rw [runNodesR, runNodesR]
    exact agree_same hp hr hr'
  | n :: rest, hc, g, prev, pixels, hp, r, r', hr, hr' => by
    unfold runNodesR
    have hn := node_agree E compat hs n (hc n (by simp))
    have ht := nodes_agree E compat hs rest fun m hm => hc m (by simp [hm])
    have tail : ∀ x y : Py (Res K), Agree s (Spec.KeepsAlpha n ∧ AlphaFits E.rounding pixels) pixels x y →
        Agree s ((∀ m ∈ n :: rest, Spec.KeepsAlpha m) ∧ AlphaFits E.rounding pixels) pixels
          (x >>= runNodesR E compat s g (some n.outDepth) rest) (y >>= runNodesR E compat 3 g (some n.outDepth) rest) := by
      intro x y h
      refine Agree.weaken (K := K) (p := (Spec.KeepsAlpha n ∧ AlphaFits E.rounding pixels) ∧ ((∀ m ∈ rest, Spec.KeepsAlpha m) ∧ AlphaFits E.rounding pixels)) ?_
        fun h => ⟨⟨h.1 n (by simp), h.2⟩, fun m hm => h.1 m (by simp [hm]), h.2⟩
      exact Agree.bind h fun outs q q' h2 h5 h6 =>
        (ht g (some n.outDepth) outs h2 q q' h5 h6).weaken fun h => ⟨h.1.2.1, alphaFits_of_drop h.2 h.1.2.2⟩
    have step : ∀ x y : Py (Res K), Agree s (Spec.KeepsAlpha n ∧ AlphaFits E.rounding pixels) pixels x y →
        Agree s ((∀ m ∈ n :: rest, Spec.KeepsAlpha m) ∧ AlphaFits E.rounding pixels) pixels
          (x >>= fun q => runNodesR E compat s g (some n.outDepth) rest (r.step q)) (y >>= fun q => runNodesR E compat 3 g (some n.outDepth) rest (r'.step q)) := by
      intro x y h
      have : Agree s (Spec.KeepsAlpha n ∧ AlphaFits E.rounding pixels) pixels (do let q ← x; pure (r.step q)) (do let q ← y; pure (r'.step q)) := by
        rcases h with ⟨e, rfl, rfl⟩ | ⟨outs, q, q', h1, h2, rfl, rfl, h5, h6, h7⟩
        · exact agree_error e
        · exact .inr ⟨outs, _, _, h1, h2, rfl, rfl, h5, h6, h7⟩
      have := tail _ _ this
      simpa only [bind_assoc, pure_bind] using this
    have stay := tail (.ok r) (.ok r') (agree_same hp hr hr')
    simp only [py_ok_bind] at stay
    by_cases hb : ((n.attr "bypass").isNone || !g && !hasFeature compat autodesk) = true
    · simp only [hb, if_true, py_pure, py_ok_bind]
      rw [hr, hr']
      exact step _ _ (hn pixels hp)
    · have no : ¬ Spec.KeepsAlpha n := fun hk => hb (by rw [KeepsAlpha.bypass hk]; rfl)
      simp only [hb, py_pure, py_ok_bind]
      split
      · contradiction
      · split
        · split_ifs
          · rw [hr, hr']
            exact step _ _ ((range_agree _ _ hs pixels hp).weaken fun h => no h.1)
          · exact stay
        · exact stay

end

end CLF
