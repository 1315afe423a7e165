import Verif.Spec.Channels
import Verif.Lemmas.Grey
import Verif.Props.RoundedList
import Verif.Props.Grey
import Verif.Model.RoundedImage

/-! # C164: rearranging channels -/

set_option linter.unusedSectionVars false

namespace CLF

variable {K : Type} [Field K] [LinearOrder K] [IsStrictOrderedRing K] [FloorRing K]

open Spec (pixelOf imageOf rearranged)

/-- A step that takes images to images and does not care how the colours are arranged. -/
def Rearranges (s : ℕ) (P : List (Flt K) → Py (List (Flt K))) : Prop :=
  ∀ ps : List ((Fin 3 → Flt K) × List (Flt K)), (∀ p ∈ ps, p.2.length + 3 = s) → ∀ o, P (imageOf ps) = .ok o →
    ∃ qs, (∀ q ∈ qs, q.2.length + 3 = s) ∧ o = imageOf qs ∧ ∀ σ, P (imageOf (rearranged σ ps)) = .ok (imageOf (rearranged σ qs))

/-- The same for one pixel. -/
def RearrangesPx (s : ℕ) (g : List (Flt K) → Py (List (Flt K))) : Prop :=
  ∀ p : (Fin 3 → Flt K) × List (Flt K), p.2.length + 3 = s → ∀ o, g (pixelOf p) = .ok o →
    ∃ q, q.2.length + 3 = s ∧ o = pixelOf q ∧ ∀ σ : Fin 3 → Fin 3, g (pixelOf (p.1 ∘ σ, p.2)) = .ok (pixelOf (q.1 ∘ σ, q.2))

theorem pixelOf_length {s : ℕ} {p : (Fin 3 → Flt K) × List (Flt K)} (h : p.2.length + 3 = s) : (pixelOf p).length = s := by
  rw [← h]
  rfl

theorem rearranges_mapM {s : ℕ} {g : List (Flt K) → Py (List (Flt K))} (hg : RearrangesPx s g)
    (ps : List ((Fin 3 → Flt K) × List (Flt K))) (hp : ∀ p ∈ ps, p.2.length + 3 = s) :
    ∀ os, (ps.map pixelOf).mapM g = .ok os → ∃ qs, (∀ q ∈ qs, q.2.length + 3 = s) ∧ os = qs.map pixelOf ∧
      ∀ σ, ((rearranged σ ps).map pixelOf).mapM g = .ok ((rearranged σ qs).map pixelOf) := by
  induction ps with
  | nil =>
    intro os h
    cases h
    exact ⟨[], by simp, rfl, fun σ => rfl⟩
  | cons p ps ih =>
    intro os h
    rw [List.map_cons, py_mapM_cons] at h
    obtain ⟨o, h1, h⟩ := py_bind_eq_ok.mp h
    obtain ⟨os', h2, h⟩ := py_bind_eq_ok.mp h
    cases h
    obtain ⟨q, hq, rfl, hσ⟩ := hg p (hp p (by simp)) o h1
    obtain ⟨qs, hqs, rfl, hσs⟩ := ih (fun p' h' => hp p' (by simp [h'])) os' h2
    refine ⟨q :: qs, List.forall_mem_cons.mpr ⟨hq, hqs⟩, rfl, fun σ => ?_⟩
    have := hσs σ
    unfold rearranged at this ⊢
    rw [List.map_cons, List.map_cons, py_mapM_cons, hσ σ, this]
    rfl

theorem rearranged_length {s : ℕ} {ps : List ((Fin 3 → Flt K) × List (Flt K))} (hp : ∀ p ∈ ps, p.2.length + 3 = s) (σ : Fin 3 → Fin 3) :
    ∀ p ∈ rearranged σ ps, p.2.length + 3 = s := by
  intro p h
  obtain ⟨p', h', rfl⟩ := List.mem_map.mp h
  exact hp p' h'

theorem rearranges_view {s : ℕ} (hs : 3 ≤ s) {g : List (Flt K) → Py (List (Flt K))} (hg : RearrangesPx s g)
    (hl : ∀ px o, px.length = s → g px = .ok o → o.length = s) :
    Rearranges s fun v => (viewLoop s v g).map (·.out) := by
  have key : ∀ ps : List ((Fin 3 → Flt K) × List (Flt K)), (∀ p ∈ ps, p.2.length + 3 = s) →
      (viewLoop s (imageOf ps) g).map (·.out) = (do let os ← (ps.map pixelOf).mapM g; .ok os.flatten : Py _) := by
    intro ps hp
    have hc : ∀ c ∈ ps.map pixelOf, c.length = s := by
      intro c h
      obtain ⟨p, h', rfl⟩ := List.mem_map.mp h
      exact pixelOf_length (hp p h')
    have := viewLoop_chunks s (by omega) g (ps.map pixelOf) [] hc (by simp; omega) (fun c h o ho => hl c o (hc c h) ho)
    rw [List.append_nil] at this
    unfold imageOf
    rw [this]
    cases (ps.map pixelOf).mapM g with
    | error e => rfl
    | ok os => simp [Except.map]
  intro ps hp o h
  simp only at h
  rw [key ps hp] at h
  obtain ⟨os, h1, h⟩ := py_bind_eq_ok.mp h
  cases h
  obtain ⟨qs, hqs, rfl, hσ⟩ := rearranges_mapM hg ps hp os h1
  refine ⟨qs, hqs, rfl, fun σ => ?_⟩
  simp only
  rw [key _ (rearranged_length hp σ), hσ σ]
  rfl

theorem rearrangesPx_chan {s : ℕ} {f : ℕ → Flt K → Py (Flt K)} (hf : ∀ i < 3, ∀ x, f i x = f 0 x) : RearrangesPx s (chanLoop 3 f) := by
  have key : ∀ p : (Fin 3 → Flt K) × List (Flt K), chanLoop 3 f (pixelOf p) = (do
      let a ← f 0 (p.1 0); let b ← f 0 (p.1 1); let c ← f 0 (p.1 2); .ok (a :: b :: c :: p.2) : Py _) := by
    intro p
    rw [chanLoop_eq _ _ _ (by simp [pixelOf])]
    simp only [pixelOf, List.take_succ_cons, List.take_zero, goChan, Nat.zero_add]
    rw [hf 1 (by norm_num), hf (1 + 1) (by norm_num)]
    cases f 0 (p.1 0) <;> cases f 0 (p.1 1) <;> cases f 0 (p.1 2) <;> rfl
  intro p hp o h
  rw [key] at h
  obtain ⟨a, ha, h⟩ := py_bind_eq_ok.mp h
  obtain ⟨b, hb, h⟩ := py_bind_eq_ok.mp h
  obtain ⟨c, hc, h⟩ := py_bind_eq_ok.mp h
  cases h
  have hy : ∀ i : Fin 3, f 0 (p.1 i) = .ok ((![a, b, c] : Fin 3 → Flt K) i) := by
    intro i
    match i with
    | 0 => exact ha
    | 1 => exact hb
    | 2 => exact hc
  refine ⟨(![a, b, c], p.2), hp, rfl, fun σ => ?_⟩
  rw [key]
  simp only [Function.comp_apply, hy, py_ok_bind]
  rfl

theorem rearrangesPx_pure {s : ℕ} : RearrangesPx (K := K) s (fun px => .ok px) := by
  intro p hp o h
  cases h
  exact ⟨p, hp, rfl, fun σ => rfl⟩

theorem rearrangesPx_all {s : ℕ} (F : Flt K → Py (Flt K)) : RearrangesPx s fun px => px.mapM F := by
  intro p hp o h
  have key : ∀ p : (Fin 3 → Flt K) × List (Flt K), (pixelOf p).mapM F = (do
      let a ← F (p.1 0); let b ← F (p.1 1); let c ← F (p.1 2); let r ← p.2.mapM F; .ok (a :: b :: c :: r) : Py _) := by
    intro p
    simp only [pixelOf, py_mapM_cons]
    cases F (p.1 0) <;> cases F (p.1 1) <;> cases F (p.1 2) <;> cases p.2.mapM F <;> rfl
  simp only at h
  rw [key] at h
  obtain ⟨a, ha, h⟩ := py_bind_eq_ok.mp h
  obtain ⟨b, hb, h⟩ := py_bind_eq_ok.mp h
  obtain ⟨c, hc, h⟩ := py_bind_eq_ok.mp h
  obtain ⟨r, hr, h⟩ := py_bind_eq_ok.mp h
  cases h
  have hy : ∀ i : Fin 3, F (p.1 i) = .ok ((![a, b, c] : Fin 3 → Flt K) i) := by
    intro i
    match i with
    | 0 => exact ha
    | 1 => exact hb
    | 2 => exact hc
  refine ⟨(![a, b, c], r), by rw [← hp]; simp [(mapM_get hr).1], rfl, fun σ => ?_⟩
  simp only
  rw [key]
  simp only [Function.comp_apply, hy, hr, py_ok_bind]
  rfl

theorem mapM_flatten_pixels (F : Flt K → Py (Flt K)) (cs : List (List (Flt K))) :
    cs.flatten.mapM F = (do let os ← cs.mapM (fun c => c.mapM F); .ok os.flatten : Py _) := by
  induction cs with
  | nil => rfl
  | cons c cs ih =>
    rw [List.flatten_cons, List.mapM_append, ih, py_mapM_cons]
    cases c.mapM F <;> cases cs.mapM (fun c => c.mapM F) <;> rfl

theorem rearranges_all {s : ℕ} (F : Flt K → Py (Flt K)) : Rearranges s fun v => v.mapM F := by
  intro ps hp o h
  simp only at h
  unfold imageOf at h
  rw [mapM_flatten_pixels] at h
  obtain ⟨os, h1, h⟩ := py_bind_eq_ok.mp h
  cases h
  obtain ⟨qs, hqs, rfl, hσ⟩ := rearranges_mapM (rearrangesPx_all F) ps hp os h1
  refine ⟨qs, hqs, rfl, fun σ => ?_⟩
  simp only
  unfold imageOf
  rw [mapM_flatten_pixels, hσ σ]
  rfl

/-! ### Nodes -/

theorem rearranges_range (R : Rounding K) (b : Base K) {s : ℕ} : Rearranges s fun v => (rangeProcessR R b v).map (·.out) := by
  intro ps hp o h
  simp only at h
  cases hr : rangeProcessR R b (imageOf ps) with
  | error e => rw [hr] at h; cases h
  | ok r =>
    rw [hr] at h
    cases h
    unfold rangeProcessR at hr
    obtain ⟨inD, h1, hr⟩ := py_bind_eq_ok.mp hr
    obtain ⟨outD, h2, hr⟩ := py_bind_eq_ok.mp hr
    obtain ⟨o, ho, hr⟩ := py_bind_eq_ok.mp hr
    cases hr
    rw [chanLoop_const] at ho
    obtain ⟨qs, hqs, hq, hσ⟩ := rearranges_all (s := s) _ ps hp o ho
    refine ⟨qs, hqs, hq, fun σ => ?_⟩
    simp only
    unfold rangeProcessR
    rw [h1, py_ok_bind, h2, py_ok_bind]
    have := hσ σ
    simp only at this
    simp only [chanLoop_const, this]
    rfl

theorem rearranges_of {s : ℕ} {P Q : List (Flt K) → Py (List (Flt K))} (h : ∀ v, P v = Q v) (hQ : Rearranges s Q) : Rearranges s P := by
  rw [show P = Q from funext h]
  exact hQ

theorem rearranges_error {s : ℕ} (e : PyErr) : Rearranges (K := K) s fun _ => .error e := by
  intro ps hp o h
  cases h

theorem rearrangesPx_chan_min {s : ℕ} {f : ℕ → Flt K → Py (Flt K)} (hf : ∀ i < 3, ∀ x, f i x = f 0 x) :
    RearrangesPx s fun px => chanLoop (min 3 px.length) f px := by
  have key : ∀ p : (Fin 3 → Flt K) × List (Flt K), chanLoop (min 3 (pixelOf p).length) f (pixelOf p) = chanLoop 3 f (pixelOf p) := by
    intro p
    rw [min_eq_left (by simp [pixelOf])]
  intro p hp o ho
  simp only at ho
  rw [key] at ho
  obtain ⟨q, h1, h2, h3⟩ := rearrangesPx_chan hf p hp o ho
  exact ⟨q, h1, h2, fun σ => by simp only; rw [key]; exact h3 σ⟩

theorem rearranges_lut1d (R : Rounding K) (t : Fmt) (b : Base K) (hb : ∀ a, b.array = .ok a → Spec.OneCurve a) (hm : b.indexMaps.length ≤ 1)
    {s : ℕ} (hs : 3 ≤ s) : Rearranges s fun v => (lut1dProcessR R t b v s).map (·.out) := by
  unfold lut1dProcessR
  cases b.attrE "inBitDepth" with
  | error e => exact rearranges_error e
  | ok inD =>
    cases b.attrE "outBitDepth" with
    | error e => exact rearranges_error e
    | ok outD =>
      cases ha : b.array with
      | error e => exact rearranges_error e
      | ok a =>
        have h1 := hb a ha
        simp only [py_ok_bind]
        refine rearranges_view hs (rearrangesPx_chan_min fun i hi x => ?_) fun px o hl h => (chanLoop_length h).2.trans hl
        simp only [normalize_alike R hm inD _ i x, oneCurve_linear R h1 _ i hi, oneCurve_half R t h1 _ i hi, Arr.lookup1DCubic]

theorem rearranges_gamma (R : Rounding K) (L : Arith K) (ps : List (GammaParam K)) (hps : ∀ p ∈ ps, p.channel = none) (b : Base K) {s : ℕ}
    (hs : 3 ≤ s) : Rearranges s fun v => (gammaProcessR R L ps b v s).map (·.out) := by
  obtain ⟨x, hx⟩ : ∃ x, gammaParams ps = .ok (List.replicate 3 x) := by
    unfold gammaParams
    refine foldlM_rows GammaParam.channel (fun p => (p.gamma, p.offset)) ps hps _ ?_ _
    intro acc p h
    simp only [h]
  unfold gammaProcessR
  rw [hx]
  cases b.attrE "inBitDepth" with
  | error e => exact rearranges_error e
  | ok inD =>
    cases b.attrE "outBitDepth" with
    | error e => exact rearranges_error e
    | ok outD =>
      cases gammaStyleR R L (b.styleOf "style") with
      | none => exact rearranges_view hs rearrangesPx_pure (fun px o hl h => by cases h; exact hl)
      | some f =>
        refine rearranges_view hs (rearrangesPx_chan fun i hi y => ?_) fun px o hl h => (chanLoop_length h).2.trans hl
        simp only [replicate_get x i hi, replicate_get x 0 (by norm_num)]

theorem rearranges_log (R : Rounding K) (L : Arith K) (ps : List (LogParam K)) (hps : ∀ p ∈ ps, p.channel = none) (b : Base K) {s : ℕ}
    (hs : 3 ≤ s) : Rearranges s fun v => (logProcessR R L ps b v s).map (·.out) := by
  obtain ⟨x, hx⟩ : ∃ x, logParamsR R ps = .ok (List.replicate 3 x) := by
    unfold logParamsR
    refine foldlM_rows LogParam.channel (fun p => p) ps hps _ ?_ _
    intro acc p h
    simp only [h]
  unfold logProcessR
  rw [hx]
  cases b.attrE "inBitDepth" with
  | error e => exact rearranges_error e
  | ok inD =>
    cases b.attrE "outBitDepth" with
    | error e => exact rearranges_error e
    | ok outD =>
      cases logStyleR R L (b.styleOf "style") with
      | none => exact rearranges_view hs rearrangesPx_pure (fun px o hl h => by cases h; exact hl)
      | some f =>
        refine rearranges_view hs (rearrangesPx_chan fun i hi y => ?_) fun px o hl h => (chanLoop_length h).2.trans hl
        simp only [replicate_get x i hi, replicate_get x 0 (by norm_num)]

/-! ### ExposureContrast -/

theorem foldlM_congr_inv {β : Type} (f f' : β → ℕ → Py β) (I : β → Prop) : ∀ (l : List ℕ), (∀ b p, p ∈ l → I b → f b p = f' b p) →
    (∀ b p b', p ∈ l → I b → f' b p = .ok b' → I b') → ∀ b, I b → l.foldlM f b = l.foldlM f' b
  | [], _, _, _, _ => rfl
  | p :: l, h, hI, b, hb => by
    rw [List.foldlM_cons, List.foldlM_cons, h b p (by simp) hb]
    cases e : f' b p with
    | error x => rfl
    | ok b' =>
      exact foldlM_congr_inv f f' I l (fun b p hp => h b p (by simp [hp])) (fun b p b' hp => hI b p b' (by simp [hp])) b'
        (hI b p b' (by simp) hb e)

theorem pySlice_take {α : Type} (l : List α) (s : ℕ) : pySlice l 3 s = (l.take s).drop 3 := by
  unfold pySlice
  rw [List.drop_take]

/-- The further channels of all pixels are those of the first, before and after. -/
theorem ecLoop_const {s : ℕ} (hs : 3 ≤ s) (f : List (Flt K) → Py (List (Flt K))) (hf : ∀ px o, f px = .ok o → o.length = px.length)
    (v α : List (Flt K)) (hα : (v.take s).drop 3 = α) (hv : s ≤ v.length) :
    pixelLoop s v (fun vals px => do
      let px' ← f px
      let o := px'.take 3 ++ pySlice vals (min 3 px.length) px.length
      pure (o, o)) =
    pixelLoop s v (fun _ px => do
      let px' ← f px
      (pure (px'.take 3 ++ α, px'.take 3 ++ α) : Py (List (Flt K) × List (Flt K)))) := by
  rw [pixelLoop_def, pixelLoop_def]
  simp only [show s ≠ 0 by omega, if_false, pyDivNat, py_ok_bind]
  have hl : α.length = s - 3 := by
    rw [← hα, List.length_drop, List.length_take, min_eq_left hv]
  have sl : ∀ (vals : List (Flt K)) (p : ℕ), vals.length = v.length → p ∈ List.range (v.length / s) →
      p * s + s ≤ v.length ∧ (pySlice vals (p * s) ((p + 1) * s)).length = s := by
    intro vals p h hp
    have hc : p * s + s ≤ v.length := chunk_le (List.mem_range.mp hp) rfl
    refine ⟨hc, ?_⟩
    rw [pySlice_length]
    · rw [Nat.succ_mul]; omega
    · rw [Nat.succ_mul]; omega
  rw [foldlM_congr_inv _ (pixelStep s fun _ px => do
      let px' ← f px
      (pure (px'.take 3 ++ α, px'.take 3 ++ α) : Py (List (Flt K) × List (Flt K))))
    (fun st => st.1.length = v.length ∧ (st.1.take s).drop 3 = α) _ ?_ ?_ _ ⟨rfl, hα⟩]
  · rintro ⟨vals, out⟩ p hp ⟨h1, h2⟩
    simp only at h1 h2
    unfold pixelStep
    simp only [(sl vals p h1 hp).2, min_eq_left hs, pySlice_take vals s, h2]
  · rintro ⟨vals, out⟩ p b' hp ⟨h1, h2⟩ h
    simp only at h1 h2
    obtain ⟨hc, h3⟩ := sl vals p h1 hp
    unfold pixelStep at h
    obtain ⟨⟨a, o⟩, h4, h⟩ := py_bind_eq_ok.mp h
    obtain ⟨q, hq, h4⟩ := py_bind_eq_ok.mp h4
    cases h4
    cases h
    have hq3 : (q.take 3).length = 3 := by
      rw [List.length_take, hf _ _ hq]
      simp only [h3]
      omega
    have hn : (q.take 3 ++ α).length = s := by
      rw [List.length_append, hq3, hl]
      omega
    refine ⟨by simp only; rw [pySplice_length _ _ _ (by omega), h1], ?_⟩
    simp only [pySplice]
    rcases Nat.eq_zero_or_pos p with rfl | hp0
    · rw [Nat.zero_mul, List.take_zero, List.nil_append, List.take_left' hn, List.drop_left' hq3]
    · have : s ≤ p * s := Nat.le_mul_of_pos_left s hp0
      rw [List.append_assoc, List.take_append_of_le_length (by rw [List.length_take]; omega), List.take_take, min_eq_left this, h2]

theorem rearrangesPx_ec (R : Rounding K) (L : Arith K) (st : AVal) (e c p : Flt K) (d1 d2 : Depth) (s : ℕ) :
    RearrangesPx s (ecChannelsR R L st e c p d1 d2) := by
  unfold ecChannelsR
  split_ifs
  · exact rearrangesPx_chan fun i hi x => rfl
  · exact rearrangesPx_chan fun i hi x => rfl
  · exact rearrangesPx_chan fun i hi x => rfl
  · exact rearrangesPx_pure

theorem rearrangesPx_tail {s : ℕ} {f : List (Flt K) → Py (List (Flt K))} (hf : RearrangesPx s f) (α : List (Flt K)) (hα : α.length + 3 = s) :
    RearrangesPx s fun px => (do
      let px' ← f px
      .ok (px'.take 3 ++ α) : Py (List (Flt K))) := by
  intro p hp o h
  obtain ⟨q, hq, h⟩ := py_bind_eq_ok.mp h
  cases h
  obtain ⟨r, hr, rfl, hσ⟩ := hf p hp q hq
  refine ⟨(r.1, α), hα, rfl, fun σ => ?_⟩
  simp only [hσ σ, py_ok_bind]
  rfl

theorem rearranges_ec (R : Rounding K) (L : Arith K) (e c p : Flt K) (b : Base K) {s : ℕ} (hs : 3 ≤ s) :
    Rearranges s fun v => (ecProcessR R L e c p b v s).map (·.out) := by
  unfold ecProcessR
  cases b.attrE "inBitDepth" with
  | error e => exact rearranges_error e
  | ok inD =>
    cases b.attrE "outBitDepth" with
    | error e => exact rearranges_error e
    | ok outD =>
      simp only [py_ok_bind]
      intro ps hp o h
      cases ps with
      | nil =>
        refine ⟨[], by simp, ?_, fun σ => ?_⟩
        · have k : Except.ok [] = (Except.ok o : Py (List (Flt K))) := by
            rw [← h]
            simp [imageOf, pixelLoop_def, pyDivNat, show s ≠ 0 by omega, py_ok_bind, Except.map]
          exact (Except.ok.inj k).symm
        · simp [imageOf, rearranged, pixelLoop_def, pyDivNat, show s ≠ 0 by omega, py_ok_bind, Except.map]
      | cons p0 ps =>
        have key : ∀ (r0 : (Fin 3 → Flt K) × List (Flt K)) (rs : List ((Fin 3 → Flt K) × List (Flt K))), r0.2 = p0.2 → r0.2.length + 3 = s →
            (pixelLoop s (imageOf (r0 :: rs)) (fun vals px => do
              let px' ← ecChannelsR R L (b.styleOf "style") e c p inD outD px
              let o := px'.take 3 ++ pySlice vals (min 3 px.length) px.length
              pure (o, o))).map (·.out) =
            (viewLoop s (imageOf (r0 :: rs)) (fun px => do
              let px' ← ecChannelsR R L (b.styleOf "style") e c p inD outD px
              .ok (px'.take 3 ++ p0.2))).map (·.out) := by
          intro r0 rs e0 hl
          have hi : imageOf (r0 :: rs) = pixelOf r0 ++ imageOf rs := rfl
          rw [ecLoop_const hs _ (fun px o => ec_length) _ p0.2 (by
            rw [hi, List.take_left' (pixelOf_length hl), ← e0]
            rfl) (by rw [hi, List.length_append, pixelOf_length hl]; omega)]
          unfold viewLoop
          congr 2
          funext vals px
          dsimp only
          cases ecChannelsR R L (b.styleOf "style") e c p inD outD px <;> rfl
        have h0 := hp p0 (by simp)
        have hw : Rearranges s fun v => (viewLoop s v (fun px => do
              let px' ← ecChannelsR R L (b.styleOf "style") e c p inD outD px
              .ok (px'.take 3 ++ p0.2))).map (·.out) :=
          rearranges_view hs (rearrangesPx_tail (rearrangesPx_ec R L _ e c p inD outD s) p0.2 h0) (by
            intro px o hl h
            obtain ⟨q, hq, h⟩ := py_bind_eq_ok.mp h
            cases h
            have := ec_length hq
            rw [List.length_append, List.length_take]
            omega)
        obtain ⟨qs, hqs, e1, hσ⟩ := hw (p0 :: ps) hp o ((key p0 ps rfl h0).symm.trans h)
        exact ⟨qs, hqs, e1, fun σ => (key (p0.1 ∘ σ, p0.2) (rearranged σ ps) rfl h0).trans (hσ σ)⟩

/-! ### Lists -/

theorem imageOf_map (F : Flt K → Flt K) (ps : List ((Fin 3 → Flt K) × List (Flt K))) :
    (imageOf ps).map F = imageOf (ps.map fun p => (F ∘ p.1, p.2.map F)) := by
  unfold imageOf
  rw [List.map_flatten, List.map_map, List.map_map]
  rfl

/-- What a step of the loop over the nodes does to a rearranged image. -/
def RearrangesRes (s : ℕ) (P : Res K → Py (Res K)) : Prop :=
  ∀ (ps : List ((Fin 3 → Flt K) × List (Flt K))), (∀ p ∈ ps, p.2.length + 3 = s) → ∀ (q r : Res K), q.out = imageOf ps → P q = .ok r →
    ∃ qs : List ((Fin 3 → Flt K) × List (Flt K)), (∀ p ∈ qs, p.2.length + 3 = s) ∧ r.out = imageOf qs ∧
      ∀ (σ : Fin 3 → Fin 3) (q' : Res K), q'.out = imageOf (rearranged σ ps) → ∃ r', P q' = .ok r' ∧ r'.out = imageOf (rearranged σ qs)

theorem rearrangesRes_id {s : ℕ} : RearrangesRes (K := K) s fun q => .ok q := by
  intro ps hp q r hq h
  cases h
  exact ⟨ps, hp, hq, fun σ q' hq' => ⟨q', rfl, hq'⟩⟩

theorem rearrangesRes_step {s : ℕ} {P : List (Flt K) → Py (Res K)} {Q : Res K → Py (Res K)} (hP : Rearranges s fun v => (P v).map (·.out))
    (hQ : RearrangesRes s Q) : RearrangesRes s fun q => (do let r ← P q.out; Q (q.step r) : Py _) := by
  intro ps hp q r hq h
  obtain ⟨t, h1, h2⟩ := py_bind_eq_ok.mp h
  rw [hq] at h1
  obtain ⟨qs, hqs, e, hσ⟩ := hP ps hp t.out (by simp only [h1]; rfl)
  obtain ⟨rs, hrs, e', hτ⟩ := hQ qs hqs (q.step t) r e h2
  refine ⟨rs, hrs, e', fun σ q' hq' => ?_⟩
  have h3 := hσ σ
  simp only at h3
  cases h4 : P (imageOf (rearranged σ ps)) with
  | error x => rw [h4] at h3; cases h3
  | ok t' =>
    rw [h4] at h3
    obtain ⟨r', h5, h6⟩ := hτ σ (q'.step t') (Except.ok.inj h3)
    exact ⟨r', by simp only [hq', h4, py_ok_bind, h5], h6⟩

theorem rearranges_of_res {s : ℕ} {P : Res K → Py (Res K)} (hP : RearrangesRes s P) : Rearranges s fun v => (P ⟨v, v, true⟩).map (·.out) := by
  intro ps hp o h
  cases h1 : P ⟨imageOf ps, imageOf ps, true⟩ with
  | error x => simp only [h1] at h; cases h
  | ok r =>
    simp only [h1] at h
    obtain ⟨qs, hqs, e, hσ⟩ := hP ps hp _ r rfl h1
    refine ⟨qs, hqs, (Except.ok.inj h).symm.trans e, fun σ => ?_⟩
    obtain ⟨r', h5, h6⟩ := hσ σ ⟨imageOf (rearranged σ ps), imageOf (rearranged σ ps), true⟩ rfl
    simp only [h5, ← h6]
    rfl

theorem rearranged_map (F : Flt K → Flt K) (σ : Fin 3 → Fin 3) (ps : List ((Fin 3 → Flt K) × List (Flt K))) :
    (imageOf (rearranged σ ps)).map F = imageOf (rearranged σ (ps.map fun p => (F ∘ p.1, p.2.map F))) := by
  rw [imageOf_map]
  unfold rearranged
  rw [List.map_map, List.map_map]
  rfl

theorem rearranges_rounded {s : ℕ} (F : Flt K → Flt K) {P : List (Flt K) → Py (List (Flt K))} (hP : Rearranges s P) :
    Rearranges s fun v => P (v.map F) := by
  intro ps hp o h
  simp only [imageOf_map] at h
  obtain ⟨qs, hqs, e, hσ⟩ := hP (ps.map fun p => (F ∘ p.1, p.2.map F)) (by
    intro q hq
    obtain ⟨p, h', rfl⟩ := List.mem_map.mp hq
    simpa using hp p h') o h
  exact ⟨qs, hqs, e, fun σ => by simp only [rearranged_map]; exact hσ σ⟩

mutual

theorem rearranges_node (E : Evaluator K) (compat : ℕ) {s : ℕ} (hs : 3 ≤ s) :
    ∀ (n : Node K), Spec.OneCurveNode n → Rearranges s fun v => (n.processR E compat s v).map (·.out)
  | .leaf k b, hc => by
    simp only [Node.processR]
    cases hc with
    | range => exact rearranges_range _ b
    | lut1d a m => exact rearranges_lut1d _ _ b a m hs
    | exposureContrast => exact rearranges_ec _ _ _ _ _ b hs
    | gamma p => exact rearranges_gamma _ _ _ p b hs
    | log p => exact rearranges_log _ _ _ p b hs
  | .group b cs, hc => by
    simp only [Node.processR]
    cases hc with
    | group hc => exact rearranges_of_res (rearranges_nodes E compat hs cs hc true none)
  | .ref b w ns, hc => by
    cases hc with
    | ref hc =>
      have := rearranges_rounded (E.rounding single) (rearranges_of_res (rearranges_nodes E compat hs ns hc false none))
      have e : (fun v => ((Node.ref b w ns).processR E compat s v).map (·.out)) = fun v =>
          (runNodesR E compat s false none ns ⟨v.map (E.rounding single), v.map (E.rounding single), true⟩).map (·.out) := by
        funext v
        rw [Node.processR]
        cases runNodesR E compat s false none ns ⟨v.map (E.rounding single), v.map (E.rounding single), true⟩ <;> rfl
      rw [e]
      exact this
  | .refMissing b w, hc => by
    simp only [Node.processR]
    intro ps hp o h
    cases h
    exact ⟨ps, hp, rfl, fun σ => rfl⟩

theorem rearranges_nodes (E : Evaluator K) (compat : ℕ) {s : ℕ} (hs : 3 ≤ s) :
    ∀ (ns : List (Node K)), (∀ n ∈ ns, Spec.OneCurveNode n) → ∀ (g : Bool) (prev : Option Depth),
      RearrangesRes s (runNodesR E compat s g prev ns)
  | [], _, g, prev => by
    intro ps hp q r hq h
    rw [runNodesR] at h
    cases h
    exact ⟨ps, hp, hq, fun σ q' hq' => ⟨q', by rw [runNodesR], hq'⟩⟩
  | n :: rest, hc, g, prev => by
    have ht := rearranges_nodes E compat hs rest (fun m hm => hc m (by simp [hm])) g (some n.outDepth)
    have hn := rearranges_node E compat hs n (hc n (by simp))
    have e : runNodesR E compat s g prev (n :: rest) = fun q => (do
        let q' ←
          if (n.attr "bypass").isNone || (!g && !hasFeature compat autodesk) then do
            let r ← n.processR E compat s q.out
            pure (q.step r)
          else
            match prev, rest with
            | some inD, next :: _ =>
              if inD ≠ next.inDepth then do
                let r ← rangeProcessR E.rounding (adapterBase inD next.inDepth) q.out
                pure (q.step r)
              else pure q
            | _, _ => pure q
        runNodesR E compat s g (some n.outDepth) rest q' : Py _) := by
      funext q
      rw [runNodesR.eq_def]
      rfl
    rw [e]
    split
    · simp only [pure_bind]
      exact rearrangesRes_step hn ht
    · split
      · split_ifs
        · simp only [pure_bind]
          exact rearrangesRes_step (rearranges_range _ _) ht
        · exact ht
      · exact ht

end

/-- C164, in any arithmetic: lists that apply one curve to red, green and blue. -/
theorem C164_list (E : Evaluator K) (compat : ℕ) (ns : List (Node K)) (hns : ∀ n ∈ ns, Spec.OneCurveNode n) (s : ℕ) (hs : 3 ≤ s)
    (ps : List ((Fin 3 → Flt K) × List (Flt K))) (hp : ∀ p ∈ ps, p.2.length + 3 = s) (o : List (Flt K))
    (h : processListR E compat ns (imageOf ps) s = .ok o) :
    ∃ qs, (∀ q ∈ qs, q.2.length + 3 = s) ∧ o = imageOf qs ∧ ∀ σ, processListR E compat ns (imageOf (rearranged σ ps)) s = .ok (imageOf (rearranged σ qs)) := by
  have key : (fun v => processListR E compat ns v s) = fun v =>
      (runNodesR E compat s false none ns ⟨v.map (E.rounding single), v.map (E.rounding single), true⟩).map (·.out) := by
    funext v
    unfold processListR
    dsimp only
    cases runNodesR E compat s false none ns ⟨v.map (E.rounding single), v.map (E.rounding single), true⟩ <;> rfl
  have hc : Rearranges s fun v => processListR E compat ns v s := by
    rw [key]
    exact rearranges_rounded (E.rounding single) (rearranges_of_res (rearranges_nodes E compat hs ns hns false none))
  exact hc ps hp o h

theorem rearranges_optRange (R : Rounding K) (r : Option (Base K)) {s : ℕ} : Rearranges s (optRangeR R r) := by
  cases r with
  | none =>
    intro ps hp o h
    cases h
    exact ⟨ps, hp, rfl, fun σ => rfl⟩
  | some b =>
    have e : optRangeR R (some b) = fun v => (rangeProcessR R b v).map (·.out) := by
      funext v
      unfold optRangeR
      dsimp only
      cases rangeProcessR R b v <;> rfl
    rw [e]
    exact rearranges_range R b

theorem rearranges_comp {s : ℕ} {P Q : List (Flt K) → Py (List (Flt K))} (hP : Rearranges s P) (hQ : Rearranges s Q) :
    Rearranges s fun v => (do let w ← P v; Q w : Py (List (Flt K))) := by
  intro ps hp o h
  obtain ⟨w, h1, h2⟩ := py_bind_eq_ok.mp h
  obtain ⟨qs, hqs, rfl, hσ⟩ := hP ps hp w h1
  obtain ⟨rs, hrs, rfl, hτ⟩ := hQ qs hqs o h2
  refine ⟨rs, hrs, rfl, fun σ => ?_⟩
  simp only [hσ σ, py_ok_bind]
  exact hτ σ

/-- C164 for a row of an image that is filtered: the bit depths of the image and of the result are adapted before and after the list. -/
theorem C164_row (E : Evaluator K) (compat : ℕ) (j : Job K) (hns : ∀ n ∈ j.nodes, Spec.OneCurveNode n) (s : ℕ) (hs : 3 ≤ s)
    (ps : List ((Fin 3 → Flt K) × List (Flt K))) (hp : ∀ p ∈ ps, p.2.length + 3 = s) (o : List (Flt K))
    (h : filterValuesR E compat j s (imageOf ps) = .ok o) :
    ∃ qs, (∀ q ∈ qs, q.2.length + 3 = s) ∧ o = imageOf qs ∧ ∀ σ, filterValuesR E compat j s (imageOf (rearranged σ ps)) = .ok (imageOf (rearranged σ qs)) :=
  rearranges_comp (rearranges_optRange E.rounding j.inRange) (rearranges_comp
    (Q := optRangeR E.rounding j.outRange) (fun ps hp o h => C164_list E compat j.nodes hns s hs ps hp o h)
    (rearranges_optRange E.rounding j.outRange)) ps hp o h

/-- C164 and errors: processing the image with its colours exchanged returns if and only if processing the image does. -/
theorem C164_returns (E : Evaluator K) (compat : ℕ) (ns : List (Node K)) (hns : ∀ n ∈ ns, Spec.OneCurveNode n) (s : ℕ) (hs : 3 ≤ s)
    (ps : List ((Fin 3 → Flt K) × List (Flt K))) (hp : ∀ p ∈ ps, p.2.length + 3 = s) (σ : Equiv.Perm (Fin 3)) :
    (∃ o, processListR E compat ns (imageOf (rearranged σ ps)) s = .ok o) ↔ ∃ o, processListR E compat ns (imageOf ps) s = .ok o := by
  constructor
  · rintro ⟨o, h⟩
    obtain ⟨qs, _, _, hσ⟩ := C164_list E compat ns hns s hs _ (rearranged_length hp σ) o h
    have e : rearranged σ.symm (rearranged σ ps) = ps := by
      unfold rearranged
      rw [List.map_map]
      refine (List.map_congr_left fun p _ => ?_).trans (List.map_id ps)
      exact Prod.ext (funext fun i => congrArg p.1 (σ.apply_symm_apply i)) rfl
    have := hσ σ.symm
    rw [e] at this
    exact ⟨_, this⟩
  · rintro ⟨o, h⟩
    obtain ⟨qs, _, _, hσ⟩ := C164_list E compat ns hns s hs ps hp o h
    exact ⟨_, hσ σ⟩

theorem imageOf_inj {s : ℕ} : ∀ (ps qs : List ((Fin 3 → Flt K) × List (Flt K))), (∀ p ∈ ps, p.2.length + 3 = s) →
    (∀ q ∈ qs, q.2.length + 3 = s) → imageOf ps = imageOf qs → ps = qs
  | [], [], _, _, _ => rfl
  | [], q :: qs, _, _, h => by simp [imageOf, pixelOf] at h
  | p :: ps, [], _, _, h => by simp [imageOf, pixelOf] at h
  | p :: ps, q :: qs, hp, hq, h => by
    have e : pixelOf p ++ imageOf ps = pixelOf q ++ imageOf qs := h
    obtain ⟨h1, h2⟩ := List.append_inj e ((pixelOf_length (hp p (by simp))).trans (pixelOf_length (hq q (by simp))).symm)
    rw [imageOf_inj ps qs (fun x hx => hp x (by simp [hx])) (fun x hx => hq x (by simp [hx])) h2]
    congr 1
    simp only [pixelOf, List.cons.injEq] at h1
    refine Prod.ext (funext fun i => ?_) h1.2.2.2
    match i with
    | 0 => exact h1.1
    | 1 => exact h1.2.1
    | 2 => exact h1.2.2.1

/-- C164: a colour of the result depends on that colour of the pixels and on the further channels, on no other colour, and in the same way for
all three. -/
theorem C164_alone (E : Evaluator K) (compat : ℕ) (ns : List (Node K)) (hns : ∀ n ∈ ns, Spec.OneCurveNode n) (s : ℕ) (hs : 3 ≤ s)
    (ps ps' qs qs' : List ((Fin 3 → Flt K) × List (Flt K))) (hp : ∀ p ∈ ps, p.2.length + 3 = s) (hp' : ∀ p ∈ ps', p.2.length + 3 = s)
    (hq : ∀ q ∈ qs, q.2.length + 3 = s) (hq' : ∀ q ∈ qs', q.2.length + 3 = s)
    (h : processListR E compat ns (imageOf ps) s = .ok (imageOf qs)) (h' : processListR E compat ns (imageOf ps') s = .ok (imageOf qs'))
    (c d : Fin 3) (hc : ps.map (fun p => (p.1 c, p.2)) = ps'.map fun p => (p.1 d, p.2)) :
    qs.map (fun q => (q.1 c, q.2)) = qs'.map fun q => (q.1 d, q.2) := by
  obtain ⟨rs, hr, e, hσ⟩ := C164_list E compat ns hns s hs ps hp _ h
  obtain ⟨rs', hr', e', hσ'⟩ := C164_list E compat ns hns s hs ps' hp' _ h'
  cases imageOf_inj _ _ hq hr e
  cases imageOf_inj _ _ hq' hr' e'
  have k : rearranged (fun _ => c) ps = rearranged (fun _ => d) ps' := by
    have := congrArg (List.map fun x : Flt K × List (Flt K) => ((fun _ => x.1 : Fin 3 → Flt K), x.2)) hc
    rw [List.map_map, List.map_map] at this
    exact this
  have k' := (hσ fun _ => c).symm.trans ((congrArg (fun z => processListR E compat ns (imageOf z) s) k).trans (hσ' fun _ => d))
  have k'' := imageOf_inj _ _ (rearranged_length hq _) (rearranged_length hq' _) (Except.ok.inj k')
  have := congrArg (List.map fun x : (Fin 3 → Flt K) × List (Flt K) => (x.1 0, x.2)) k''
  unfold rearranged at this
  rw [List.map_map, List.map_map] at this
  exact this

/-- C164 in the arithmetic of the code. -/
theorem C164_ieee (t : Base K → Fmt) (L : Arith K) (compat : ℕ) (ns : List (Node K)) (hns : ∀ n ∈ ns, Spec.OneCurveNode n) (s : ℕ)
    (hs : 3 ≤ s) (ps : List ((Fin 3 → Flt K) × List (Flt K))) (hp : ∀ p ∈ ps, p.2.length + 3 = s) (o : List (Flt K))
    (h : processListR ⟨ieee, t, L⟩ compat ns (imageOf ps) s = .ok o) :
    ∃ qs, (∀ q ∈ qs, q.2.length + 3 = s) ∧ o = imageOf qs ∧ ∀ σ, processListR ⟨ieee, t, L⟩ compat ns (imageOf (rearranged σ ps)) s = .ok (imageOf (rearranged σ qs)) :=
  C164_list _ compat ns hns s hs ps hp o h

/-- C164 in exact arithmetic. -/
theorem C164_exact (A : Arith K) (hA : A.Exact) (compat : ℕ) (ns : List (Node K)) (hns : ∀ n ∈ ns, Spec.OneCurveNode n) (s : ℕ)
    (hs : 3 ≤ s) (ps : List ((Fin 3 → Flt K) × List (Flt K))) (hp : ∀ p ∈ ps, p.2.length + 3 = s) (o : List (Flt K))
    (h : processList A compat ns (imageOf ps) s = .ok o) :
    ∃ qs, (∀ q ∈ qs, q.2.length + 3 = s) ∧ o = imageOf qs ∧ ∀ σ, processList A compat ns (imageOf (rearranged σ ps)) s = .ok (imageOf (rearranged σ qs)) := by
  have := C164_list ⟨unrounded, fun _ => single, A⟩ compat ns hns s hs ps hp o (by rw [C133_exact A hA]; exact h)
  simpa only [C133_exact A hA] using this

/-- A group of a 1D LUT with one curve and a Range, and a Range behind it. -/
def oneCurveNodes : List (Node ℚ) :=
  [.group { attrs := [("inBitDepth", .str "32f"), ("outBitDepth", .str "8i")] }
    [.leaf .lut1d { attrs := [("inBitDepth", .str "32f"), ("outBitDepth", .str "32f"), ("interpolation", .str "linear")]
                    elements := [.array { dims := [3, 1], values := [.fin 0, .fin (1 / 8), .fin 1] }] },
     .leaf .range { attrs := [("inBitDepth", .str "32f"), ("outBitDepth", .str "8i")] }],
   .leaf .range { attrs := [("inBitDepth", .str "8i"), ("outBitDepth", .str "10i")] }]

theorem oneCurveNodes_ok : ∀ n ∈ oneCurveNodes, Spec.OneCurveNode n := by
  intro n hn
  simp only [oneCurveNodes, List.mem_cons, List.not_mem_nil, or_false] at hn
  rcases hn with rfl | rfl
  · refine .group ?_
    intro m hm
    simp only [List.mem_cons, List.not_mem_nil, or_false] at hm
    rcases hm with rfl | rfl
    · refine .lut1d ?_ (by decide)
      intro a ha
      cases ha
      exact .inl (by decide)
    · exact .range
  · exact .range

/-- A pixel with a further channel. -/
def colourful : List ((Fin 3 → Flt ℚ) × List (Flt ℚ)) := [(![.fin (1 / 4), .fin (1 / 2), .fin 1], [.fin 1])]

example : (processListR ⟨ieee, fun _ => single, ratArith⟩ autodesk oneCurveNodes (imageOf colourful) 4).toOption.isSome ∧
    processListR ⟨ieee, fun _ => single, ratArith⟩ autodesk oneCurveNodes (imageOf (rearranged ![2, 1, 0] colourful)) 4 ≠
      processListR ⟨ieee, fun _ => single, ratArith⟩ autodesk oneCurveNodes (imageOf colourful) 4 := by decide +kernel

example (o : List (Flt ℚ)) (h : processListR ⟨ieee, fun _ => single, ratArith⟩ autodesk oneCurveNodes (imageOf colourful) 4 = .ok o) :
    ∃ qs, (∀ q ∈ qs, q.2.length + 3 = 4) ∧ o = imageOf qs ∧ ∀ σ, processListR ⟨ieee, fun _ => single, ratArith⟩ autodesk oneCurveNodes (imageOf (rearranged σ colourful)) 4 =
      .ok (imageOf (rearranged σ qs)) :=
  C164_ieee _ _ _ _ oneCurveNodes_ok 4 (by norm_num) colourful (by simp [colourful]) o h

example (o : List (Flt ℚ)) (h : processList ratArith autodesk oneCurveNodes (imageOf colourful) 4 = .ok o) :
    ∃ qs, (∀ q ∈ qs, q.2.length + 3 = 4) ∧ o = imageOf qs ∧ ∀ σ, processList ratArith autodesk oneCurveNodes (imageOf (rearranged σ colourful)) 4 =
      .ok (imageOf (rearranged σ qs)) :=
  C164_exact ratArith (fun _ => rfl) _ _ oneCurveNodes_ok 4 (by norm_num) colourful (by simp [colourful]) o h

example : (∃ o, processListR ⟨ieee, fun _ => single, ratArith⟩ autodesk oneCurveNodes (imageOf (rearranged (Equiv.swap 0 2) colourful)) 4 = .ok o) ↔
    ∃ o, processListR ⟨ieee, fun _ => single, ratArith⟩ autodesk oneCurveNodes (imageOf colourful) 4 = .ok o :=
  C164_returns _ _ _ oneCurveNodes_ok 4 (by norm_num) colourful (by simp [colourful]) (Equiv.swap 0 2)

/-- A job of filtering 8 bit rows. -/
def oneCurveJob : Job ℚ where
  nodes := oneCurveNodes
  inRange := some { attrs := [("inBitDepth", .str "8i"), ("outBitDepth", .str "32f")] }
  outRange := some { attrs := [("inBitDepth", .str "10i"), ("outBitDepth", .str "8i")] }
  data := .floats []
  width := 1
  height := 6
  channels := 4

example : (filterValuesR ⟨ieee, fun _ => single, ratArith⟩ autodesk oneCurveJob 4 (imageOf colourful)).toOption.isSome := by decide +kernel

example (o : List (Flt ℚ)) (h : filterValuesR ⟨ieee, fun _ => single, ratArith⟩ autodesk oneCurveJob 4 (imageOf colourful) = .ok o) :
    ∃ qs, (∀ q ∈ qs, q.2.length + 3 = 4) ∧ o = imageOf qs ∧
      ∀ σ, filterValuesR ⟨ieee, fun _ => single, ratArith⟩ autodesk oneCurveJob 4 (imageOf (rearranged σ colourful)) = .ok (imageOf (rearranged σ qs)) :=
  C164_row _ _ _ oneCurveNodes_ok 4 (by norm_num) colourful (by simp [colourful]) o h

/-- The red of this pixel is the green of `colourful`. -/
example (qs qs' : List ((Fin 3 → Flt ℚ) × List (Flt ℚ))) (hq : ∀ q ∈ qs, q.2.length + 3 = 4) (hq' : ∀ q ∈ qs', q.2.length + 3 = 4)
    (h : processListR ⟨ieee, fun _ => single, ratArith⟩ autodesk oneCurveNodes (imageOf colourful) 4 = .ok (imageOf qs))
    (h' : processListR ⟨ieee, fun _ => single, ratArith⟩ autodesk oneCurveNodes (imageOf [(![.fin (1 / 2), .fin 7, .fin 0], [.fin 1])]) 4 = .ok (imageOf qs')) :
    qs.map (fun q => (q.1 1, q.2)) = qs'.map fun q => (q.1 0, q.2) :=
  C164_alone _ _ _ oneCurveNodes_ok 4 (by norm_num) colourful _ qs qs' (by simp [colourful]) (by simp) hq hq' h h' 1 0 (by simp [colourful])

/-- C164 is false of a 1D LUT with one curve that has an IndexMap for each channel. -/
theorem C164_maps_false : ∃ (b : Base ℚ) (ps qs : List ((Fin 3 → Flt ℚ) × List (Flt ℚ))) (σ : Fin 3 → Fin 3),
    (∀ a, b.array = .ok a → Spec.OneCurve a) ∧ b.indexMaps.length = 3 ∧
    processListR ⟨ieee, fun _ => single, ratArith⟩ autodesk [.leaf .lut1d b] (imageOf ps) 3 = .ok (imageOf qs) ∧
    processListR ⟨ieee, fun _ => single, ratArith⟩ autodesk [.leaf .lut1d b] (imageOf (rearranged σ ps)) 3 ≠ .ok (imageOf (rearranged σ qs)) :=
  ⟨{ attrs := [("inBitDepth", .str "32f"), ("outBitDepth", .str "32f"), ("interpolation", .str "linear")]
     elements := [.indexMap ⟨2, [.fin 0, .fin 1], [.fin 0, .fin 2]⟩, .indexMap ⟨2, [.fin 0, .fin 1], [.fin 0, .fin 1]⟩,
       .indexMap ⟨2, [.fin 0, .fin 1], [.fin 0, .fin 1]⟩, .array { dims := [3, 1], values := [.fin 0, .fin (1 / 8), .fin 1] }] },
    [(![.fin 1, .fin 0, .fin 0], [])], [(![.fin 1, .fin 0, .fin 0], [])], ![1, 0, 2], by
      intro a ha
      cases ha
      exact .inl (by decide), rfl, by decide +kernel, by decide +kernel⟩

/-- C164 for Matrix nodes, in exact arithmetic: exchanging channels before is exchanging them after, if the matrix is the same after exchanging
its rows and columns. -/
theorem C164_matrix (A : Arith K) (hA : A.Exact) {n : ℕ} (b : Base K) (M : Matrix (Fin n) (Fin n) K) (h : MatrixNode b M)
    (σ : Equiv.Perm (Fin n)) (hM : ∀ i j, M (σ i) (σ j) = M i j) (stride : ℕ) (hs : 0 < stride)
    (pixels : List ((Fin n → K) × List (Flt K))) (hp : ∀ p ∈ pixels, n + p.2.length = stride) :
    ∃ qs : List ((Fin n → K) × List (Flt K)), (matrixProcess A b (Spec.image pixels) stride).map (·.out) = .ok (Spec.image qs) ∧
      (matrixProcess A b (Spec.image (pixels.map fun p => (p.1 ∘ σ, p.2))) stride).map (·.out) =
        .ok (Spec.image (qs.map fun q => (q.1 ∘ σ, q.2))) := by
  refine ⟨pixels.map fun p => (M.mulVec p.1, p.2), by rw [C10_linear A hA b M h stride hs _ hp]; rfl, ?_⟩
  rw [C10_linear A hA b M h stride hs _ (by
    intro q hq
    obtain ⟨p, hpm, rfl⟩ := List.mem_map.mp hq
    exact hp p hpm)]
  show Except.ok (Spec.image _) = _
  rw [List.map_map, List.map_map]
  congr 3
  funext p
  show (_, p.2) = (_, p.2)
  congr 1
  funext i
  show ∑ j, M i j * p.1 (σ j) = ∑ j, M (σ i) j * p.1 j
  rw [← Equiv.sum_comp σ fun j => M (σ i) j * p.1 j]
  exact Finset.sum_congr rfl fun j _ => by rw [hM]

/-- A Matrix node that treats the three colours alike. -/
def turningMatrix : Base ℚ :=
  { attrs := [("inBitDepth", .str "32f"), ("outBitDepth", .str "32f")]
    elements := [.array { dims := [3, 3], values := [[1, 1 / 2 ^ 24, 1 / 2 ^ 24], [1 / 2 ^ 24, 1, 1 / 2 ^ 24], [1 / 2 ^ 24, 1 / 2 ^ 24, 1]].flatten.map Flt.fin }] }

theorem turningMatrix_node : MatrixNode turningMatrix !![1, 1 / 2 ^ 24, 1 / 2 ^ 24; 1 / 2 ^ 24, 1, 1 / 2 ^ 24; 1 / 2 ^ 24, 1 / 2 ^ 24, 1] :=
  ⟨rfl, rfl, _, [], rfl, rfl, by decide +kernel⟩

theorem turningMatrix_same (i j : Fin 3) :
    (!![1, 1 / 2 ^ 24, 1 / 2 ^ 24; 1 / 2 ^ 24, 1, 1 / 2 ^ 24; 1 / 2 ^ 24, 1 / 2 ^ 24, 1] : Matrix (Fin 3) (Fin 3) ℚ) (Equiv.swap 0 2 i) (Equiv.swap 0 2 j) =
      (!![1, 1 / 2 ^ 24, 1 / 2 ^ 24; 1 / 2 ^ 24, 1, 1 / 2 ^ 24; 1 / 2 ^ 24, 1 / 2 ^ 24, 1] : Matrix (Fin 3) (Fin 3) ℚ) i j := by
  fin_cases i <;> fin_cases j <;> rfl

example : ∃ qs : List ((Fin 3 → ℚ) × List (Flt ℚ)),
    (matrixProcess ratArith turningMatrix (Spec.image [((![1, 2, 3] : Fin 3 → ℚ), [Flt.fin 5])]) 4).map (·.out) = .ok (Spec.image qs) ∧
      (matrixProcess ratArith turningMatrix (Spec.image ([((![1, 2, 3] : Fin 3 → ℚ), [Flt.fin 5])].map fun p => (p.1 ∘ Equiv.swap 0 2, p.2))) 4).map (·.out) =
        .ok (Spec.image (qs.map fun q => (q.1 ∘ Equiv.swap 0 2, q.2))) :=
  C164_matrix ratArith (fun _ => rfl) turningMatrix _ turningMatrix_node (Equiv.swap 0 2) turningMatrix_same 4 (by norm_num) _ (by simp)

/-- C164 is false of Matrix nodes in IEEE arithmetic: this matrix is the same for all three colours, but the sums are rounded in the order of
the colours, and blue comes out a bit lighter when red and blue went in alike. -/
theorem C164_matrix_false : ∃ (b : Base ℚ) (M : Matrix (Fin 3) (Fin 3) ℚ) (ps qs : List ((Fin 3 → Flt ℚ) × List (Flt ℚ))) (σ : Equiv.Perm (Fin 3)),
    MatrixNode b M ∧ (∀ i j, M (σ i) (σ j) = M i j) ∧ (∀ i j, Spec.IsSingle (M i j)) ∧
    (matrixProcessR ieee single b (imageOf ps) 3).map (·.out) = .ok (imageOf qs) ∧
    (matrixProcessR ieee single b (imageOf (rearranged σ ps)) 3).map (·.out) ≠ .ok (imageOf (rearranged σ qs)) := by
  refine ⟨turningMatrix, _, [(fun _ => .fin 1, [])], [(![.fin 1, .fin 1, .fin (1 + 1 / 2 ^ 23)], [])], Equiv.swap 0 2, turningMatrix_node,
    turningMatrix_same, ?_, by decide +kernel, by decide +kernel⟩
  unfold Spec.IsSingle
  decide +kernel

end CLF
