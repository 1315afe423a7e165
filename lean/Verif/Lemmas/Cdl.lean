import Verif.Lemmas.Loops
import Verif.Lemmas.Range
import Verif.Spec.Real
import Verif.Spec.Nodes

/-! # Lemmas: ASC CDL -/

set_option linter.unusedSectionVars false

namespace CLF

variable {K : Type} [Field K] [LinearOrder K] [IsStrictOrderedRing K] [FloorRing K]

theorem chanLoop3 (f : ℕ → Flt K → Py (Flt K)) (x y z : Flt K) (rest : List (Flt K)) :
    chanLoop 3 f (x :: y :: z :: rest)
      = (do let a ← f 0 x; let b ← f 1 y; let c ← f 2 z; .ok (a :: b :: c :: rest)) := by
  rw [chanLoop_eq 3 f _ (by simp)]
  simp only [List.take_succ_cons, List.take_zero, goChan, List.drop_succ_cons, List.drop_zero]
  cases f 0 x with
  | error e => rfl
  | ok a =>
    simp only [py_ok_bind]
    cases f 1 y with
    | error e => rfl
    | ok b =>
      simp only [py_ok_bind]
      cases f 2 z <;> rfl

theorem fins3 (w : Fin 3 → K) : Spec.fins w = [.fin (w 0), .fin (w 1), .fin (w 2)] := by
  simp [Spec.fins, List.ofFn_succ]

theorem fins3_get (w : Fin 3 → K) (i : Fin 3) : pyGet (Spec.fins w) (i : ℕ) = .ok (.fin (w i)) := by
  rw [pyGet_eq_ok, Spec.fins, List.getElem?_ofFn, dif_pos i.2]

/-- A loop over the three colour channels of a finite pixel. -/
theorem chanLoop3_fins (f : ℕ → Flt K → Py (Flt K)) (x w : Fin 3 → K) (rest : List (Flt K))
    (h : ∀ i : Fin 3, f i (.fin (x i)) = .ok (.fin (w i))) :
    chanLoop 3 f (Spec.fins x ++ rest) = .ok (Spec.fins w ++ rest) := by
  have h0 := h 0
  have h1 := h 1
  have h2 := h 2
  simp only [Fin.val_zero, Fin.val_one, Fin.val_two] at h0 h1 h2
  rw [fins3, fins3]
  simp only [List.cons_append, List.nil_append, chanLoop3, h0, h1, h2, py_ok_bind]

theorem luma_fins (w : Fin 3 → K) (rest : List (Flt K)) :
    luma (Spec.fins w ++ rest) = .ok (.fin (Spec.luma w)) := by
  rw [fins3]
  simp [luma, Spec.luma]

theorem pyPow_ok {A : Arith K} {b e : K} (hb : 0 ≤ b) (he : 0 < e ∨ 0 < b) :
    pyPow A (.fin b) (.fin e) = .ok (A.pow (.fin b) (.fin e)) := by
  have h1 : ¬ (b = 0 ∧ e < 0) := by
    rintro ⟨h1, h2⟩
    rcases he with he | he
    · exact absurd h2 (not_lt.mpr he.le)
    · exact he.ne' h1
  have h2 : ¬ (b < 0 ∧ (⌊e⌋ : K) ≠ e) := fun h => absurd h.1 (not_lt.mpr hb)
  simp only [pyPow, if_neg h1, if_neg h2]

theorem clip_mem (x : K) : 0 ≤ Spec.clip x ∧ Spec.clip x ≤ 1 :=
  ⟨le_min zero_le_one (le_max_left _ _), min_le_left _ _⟩

theorem clip_of_mem {x : K} (h0 : 0 ≤ x) (h1 : x ≤ 1) : Spec.clip x = x := by
  rw [Spec.clip, max_eq_right h0, min_eq_right h1]

theorem clamp01_clip (x : K) : clamp01 (.fin x) = .fin (Spec.clip x) := clamp01_fin x

theorem cdlDiv_fin (u : Flt K) {a b : K} (h : b ≠ 0) :
    cdlDiv u (.fin a) (.fin b) = .ok (.fin (a / b)) := by
  unfold cdlDiv
  rw [pyDivF_fin h, Flt.fin_div h]
  split <;> rfl

/-- Finite CDL parameters. -/
def finCdl (s o p : Fin 3 → K) (σ : K) : Cdl K := ⟨Spec.fins s, Spec.fins o, Spec.fins p, .fin σ⟩

variable {A : Arith K} {P : K → K → K}

theorem cdlFwd_pixel (h : Spec.Powers A P) (s o p : Fin 3 → K) (σ : K) (hp : ∀ i, 0 < p i)
    (d1 d2 : Depth) (x : Fin 3 → K) (rest : List (Flt K)) (w : Fin 3 → K)
    (hw : ∀ i, w i = P (Spec.clip (x i / Spec.fullScale d1 * s i + o i)) (p i)) :
    cdlFwd A (finCdl s o p σ) d1 d2 (Spec.fins x ++ rest)
      = .ok (Spec.fins (fun i => Spec.clip (Spec.luma w + σ * (w i - Spec.luma w))
          * Spec.fullScale d2) ++ rest) := by
  unfold cdlFwd
  rw [chanLoop3_fins _ x w rest]
  · simp only [py_ok_bind, luma_fins]
    apply chanLoop3_fins
    intro i
    simp only [h.exact _, finCdl, Flt.fin_sub, Flt.fin_mul, Flt.fin_add, clamp01_clip, toDepth_fin,
      bitDepthSize_eq_fullScale, py_pure]
  · intro i
    simp only [h.exact _, finCdl, fins3_get, py_ok_bind, toNormalized_fin, Flt.fin_mul, Flt.fin_add,
      clamp01_clip, pyPow_ok (clip_mem _).1 (.inl (hp i)), h.pow _ _ (clip_mem _).1 (hp i),
      bitDepthSize_eq_fullScale, py_pure, hw]

theorem cdlFwdNoClamp_pixel (h : Spec.Powers A P) (s o p : Fin 3 → K) (σ : K) (hp : ∀ i, 0 < p i)
    (d1 d2 : Depth) (x : Fin 3 → K) (rest : List (Flt K)) (w : Fin 3 → K)
    (hw : ∀ i, w i = if x i / Spec.fullScale d1 * s i + o i < 0
      then x i / Spec.fullScale d1 * s i + o i
      else P (x i / Spec.fullScale d1 * s i + o i) (p i)) :
    cdlFwdNoClamp A (finCdl s o p σ) d1 d2 (Spec.fins x ++ rest)
      = .ok (Spec.fins (fun i => (Spec.luma w + σ * (w i - Spec.luma w)) * Spec.fullScale d2)
          ++ rest) := by
  unfold cdlFwdNoClamp
  rw [chanLoop3_fins _ x w rest]
  · simp only [py_ok_bind, luma_fins]
    apply chanLoop3_fins
    intro i
    simp only [h.exact _, finCdl, Flt.fin_sub, Flt.fin_mul, Flt.fin_add, toDepth_fin,
      bitDepthSize_eq_fullScale, py_pure]
  · intro i
    simp only [h.exact _, finCdl, fins3_get, py_ok_bind, toNormalized_fin, Flt.fin_mul, Flt.fin_add,
      bitDepthSize_eq_fullScale, py_pure, Flt.lt_fin, decide_eq_true_eq, hw]
    split_ifs with hc
    · rfl
    · rw [h.pow _ _ (not_lt.mp hc) (hp i)]

theorem cdlRev_pixel (h : Spec.Powers A P) (s o p : Fin 3 → K) (σ : K) (hp : ∀ i, 0 < p i)
    (hs : ∀ i, s i ≠ 0) (hσ : σ ≠ 0)
    (d1 d2 : Depth) (x : Fin 3 → K) (rest : List (Flt K)) (y : Fin 3 → K)
    (hy : ∀ i, y i = Spec.clip (x i / Spec.fullScale d1)) :
    cdlRev A (finCdl s o p σ) d1 d2 (Spec.fins x ++ rest)
      = .ok (Spec.fins (fun i => Spec.clip ((P (Spec.clip (Spec.luma y + 1 / σ * (y i - Spec.luma y)))
          (1 / p i) - o i) / s i) * Spec.fullScale d2) ++ rest) := by
  unfold cdlRev
  rw [chanLoop3_fins _ x y rest]
  · simp only [py_ok_bind, luma_fins]
    apply chanLoop3_fins
    intro i
    have hip : 0 < 1 / p i := one_div_pos.mpr (hp i)
    simp only [h.exact _, finCdl, pyDivF_fin hσ, py_ok_bind, Flt.fin_sub, Flt.fin_mul, Flt.fin_add,
      fins3_get, pyDivF_fin (hp i).ne', clamp01_clip, pyPow_ok (clip_mem _).1 (.inl hip),
      h.pow _ _ (clip_mem _).1 hip, cdlDiv_fin _ (hs i), toDepth_fin,
      bitDepthSize_eq_fullScale, py_pure]
  · intro i
    simp only [h.exact _, toNormalized_fin, clamp01_clip, bitDepthSize_eq_fullScale, py_pure, hy]

theorem cdlRevNoClamp_pixel (h : Spec.Powers A P) (s o p : Fin 3 → K) (σ : K) (hp : ∀ i, 0 < p i)
    (hs : ∀ i, s i ≠ 0) (hσ : σ ≠ 0)
    (d1 d2 : Depth) (x : Fin 3 → K) (rest : List (Flt K)) (y u : Fin 3 → K)
    (hy : ∀ i, y i = x i / Spec.fullScale d1)
    (hu : ∀ i, u i = Spec.luma y + 1 / σ * (y i - Spec.luma y)) :
    cdlRevNoClamp A (finCdl s o p σ) d1 d2 (Spec.fins x ++ rest)
      = .ok (Spec.fins (fun i => ((if u i < 0 then 0 else P (Spec.clip (u i)) (1 / p i)) - o i) / s i
          * Spec.fullScale d2) ++ rest) := by
  unfold cdlRevNoClamp
  rw [chanLoop3_fins _ x y rest]
  · simp only [py_ok_bind, luma_fins]
    apply chanLoop3_fins
    intro i
    have hip : 0 < 1 / p i := one_div_pos.mpr (hp i)
    simp only [h.exact _, finCdl, pyDivF_fin hσ, py_ok_bind, Flt.fin_sub, Flt.fin_mul, Flt.fin_add,
      fins3_get, pyDivF_fin (hp i).ne', clamp01_clip, pyPow_ok (clip_mem _).1 (.inl hip),
      h.pow _ _ (clip_mem _).1 hip, cdlDiv_fin _ (hs i), Flt.lt_fin, decide_eq_true_eq,
      bitDepthSize_eq_fullScale, py_pure, ← hu]
    split_ifs with hc
    · have : Spec.clip (u i) = 0 := by
        rw [Spec.clip, max_eq_left hc.le, min_eq_right zero_le_one]
      simp only [py_ok_bind, toDepth_fin, this, bitDepthSize_eq_fullScale]
    · simp only [py_ok_bind, toDepth_fin, bitDepthSize_eq_fullScale]
  · intro i
    simp only [h.exact _, toNormalized_fin, bitDepthSize_eq_fullScale, py_pure, hy]

/-! ### From pixels to arrays -/

theorem cdlPixel_length {A : Arith K} {st : AVal} {c : Cdl K} {d1 d2 : Depth} {px r : List (Flt K)}
    (h : cdlPixel A st c d1 d2 px = .ok r) : r.length = px.length := by
  have two : ∀ (f g : ℕ → Flt K → Py (Flt K)) (l : List (Flt K) → Py (Flt K)) (g' : Flt K → ℕ → Flt K → Py (Flt K)),
      (do let px ← chanLoop 3 f px; let l ← l px; chanLoop 3 (g' l) px) = .ok r →
      r.length = px.length := by
    intro f g l g' h
    obtain ⟨px1, h1, h⟩ := py_bind_eq_ok.mp h
    obtain ⟨l1, h2, h⟩ := py_bind_eq_ok.mp h
    rw [(chanLoop_length h).2, (chanLoop_length h1).2]
  unfold cdlPixel at h
  split_ifs at h
  · exact two _ (fun _ _ => .ok .nan) _ _ h
  · exact two _ (fun _ _ => .ok .nan) _ _ h
  · exact two _ (fun _ _ => .ok .nan) _ _ h
  · exact two _ (fun _ _ => .ok .nan) _ _ h
  · cases h; rfl

theorem StyledNode.attrs {b : Base K} {din dout st : AVal} (h : StyledNode b din dout st) :
    b.attrE "inBitDepth" = .ok (some din) ∧ b.attrE "outBitDepth" = .ok (some dout) ∧
      b.styleOf "style" = st := by
  refine ⟨?_, ?_, ?_⟩
  · simp [Base.attrE, Dict.getE, h.inDepth]
  · simp [Base.attrE, Dict.getE, h.outDepth]
  · simp [Base.styleOf, h.style]

theorem cdlProcess_chunks (A : Arith K) (compat : ℕ) (v : CdlValues K) (b : Base K)
    (din dout st : AVal) (h : StyledNode b din dout st)
    (hst : hasFeature compat autodesk = true ∨ cdlVendorStyles.contains st = false)
    (stride : ℕ) (hs : 3 ≤ stride) (cs : List (List (Flt K))) (hc : ∀ c ∈ cs, c.length = stride) :
    cdlProcess A compat v b cs.flatten stride
      = (do let ps ← cs.mapM (cdlPixel A st v.resolve (some din) (some dout))
            .ok ⟨ps.flatten, ps.flatten, false⟩) := by
  obtain ⟨e1, e2, e3⟩ := h.attrs
  unfold cdlProcess
  have hs0 : ¬ stride = 0 := by omega
  have hs3 : ¬ stride < 3 := by omega
  have hg : (!hasFeature compat autodesk && cdlVendorStyles.contains st) = false := by
    rcases hst with h | h <;> rw [h] <;> simp
  simp only [if_neg hs0, if_neg hs3, e1, e2, e3, py_ok_bind, hg, Bool.false_eq_true, if_false]
  have := viewLoop_chunks stride (by omega) (cdlPixel A st v.resolve (some din) (some dout)) cs []
    hc (by simp; omega) (by
      intro c hcc o ho
      rw [cdlPixel_length ho, hc c hcc])
  rw [List.append_nil] at this
  rw [this]
  simp

theorem py_mapM_map {α β γ : Type} (f : β → Py γ) (g : α → β) (l : List α) :
    (l.map g).mapM f = l.mapM fun a => f (g a) := by
  induction l with
  | nil => rfl
  | cons a l ih => rw [List.map_cons, py_mapM_cons, py_mapM_cons, ih]

/-- Reassembling an image row. -/
theorem image_eq (pixels : List ((Fin 3 → K) × List (Flt K))) :
    Spec.image pixels = (pixels.map fun p => Spec.fins p.1 ++ p.2).flatten := rfl

/-- A CDL node on finite pixels, from what it does to one pixel. -/
theorem cdlProcess_image (A : Arith K) (compat : ℕ) (v : CdlValues K) (b : Base K)
    (din dout st : AVal) (h : StyledNode b din dout st)
    (hst : hasFeature compat autodesk = true ∨ cdlVendorStyles.contains st = false)
    (stride : ℕ) (pixels : List ((Fin 3 → K) × List (Flt K)))
    (hp : ∀ p ∈ pixels, p.2.length + 3 = stride) (hs : 3 ≤ stride) (F : (Fin 3 → K) → Fin 3 → K)
    (hF : ∀ p ∈ pixels, cdlPixel A st v.resolve (some din) (some dout) (Spec.fins p.1 ++ p.2)
      = .ok (Spec.fins (F p.1) ++ p.2)) :
    ∃ r, cdlProcess A compat v b (Spec.image pixels) stride = .ok r ∧
      r.out = Spec.image (pixels.map fun p => (F p.1, p.2)) := by
  rw [image_eq, cdlProcess_chunks A compat v b din dout st h hst stride hs]
  · rw [py_mapM_map, py_mapM_ok _ (fun p => Spec.fins (F p.1) ++ p.2) pixels hF]
    refine ⟨_, rfl, ?_⟩
    rw [image_eq, List.map_map]
    rfl
  · intro c hc
    obtain ⟨p, hp', rfl⟩ := List.mem_map.mp hc
    have := hp p hp'
    simp [Spec.fins]; omega

theorem fwd_chan {A : Arith K} (hA1 : Spec.Keeps A 1) {d : Depth}
    (hA2 : Spec.Keeps A (Spec.fullScale d)) (u : Flt K) :
    Spec.InScale d (A.f32 (normalizedToBitDepth (A.f32 (clamp01 u)) d)) := by
  obtain ⟨y, hy, h0, h1⟩ := clamp01_mem u
  obtain ⟨z, hz, z0, z1⟩ := hA1 y h0 h1
  have hfs : (0 : K) < Spec.fullScale d := fullScale_pos d
  rw [hy, hz, toDepth_fin, bitDepthSize_eq_fullScale]
  exact hA2 _ (mul_nonneg z0 hfs.le) (by nlinarith)

theorem NeutralCdl.resolve {v : CdlValues K} (h : NeutralCdl v) :
    v.resolve = finCdl (fun _ => 1) (fun _ => 0) (fun _ => 1) 1 := by
  unfold CdlValues.resolve finCdl
  rw [fins3, fins3]
  congr 1
  · rcases h.slope with h | h <;> rw [h] <;> rfl
  · rcases h.offset with h | h <;> rw [h] <;> rfl
  · rcases h.power with h | h <;> rw [h] <;> rfl
  · rcases h.saturation with h | h <;> rw [h] <;> rfl

theorem CdlIs.resolve {v : CdlValues K} {s o p : Fin 3 → K} {σ : K} (h : CdlIs v s o p σ) :
    v.resolve = finCdl s o p σ := by
  unfold CdlValues.resolve finCdl
  congr 1
  · rcases h.slope with e | ⟨e, rfl⟩ <;> rw [e] <;> simp [fins3]
  · rcases h.offset with e | ⟨e, rfl⟩ <;> rw [e] <;> simp [fins3]
  · rcases h.power with e | ⟨e, rfl⟩ <;> rw [e] <;> simp [fins3]
  · rcases h.saturation with e | ⟨e, rfl⟩ <;> rw [e] <;> rfl

/-- Changing the saturation keeps the luma. -/
theorem luma_sat (w : Fin 3 → K) (σ : K) :
    Spec.luma (fun i => Spec.luma w + σ * (w i - Spec.luma w)) = Spec.luma w := by
  unfold Spec.luma; ring

theorem unsat {σ : K} (hσ : σ ≠ 0) (l w : K) : l + 1 / σ * (l + σ * (w - l) - l) = w := by
  field_simp; ring

/-- What `RevNoClamp` after `FwdNoClamp` does to a pixel: the value after slope and
offset is confined to [0, 1]. -/
theorem noClamp_roundtrip (A : Arith ℝ) (hA : Spec.RealArith A) (compat : ℕ) (v : CdlValues ℝ)
    (s o p : Fin 3 → ℝ) (σ : ℝ) (hv : CdlIs v s o p σ) (hs0 : ∀ i, s i ≠ 0) (hp0 : ∀ i, 0 < p i)
    (hσ : σ ≠ 0) (bf br : Base ℝ) (d1 d2 : AVal) (hf : StyledNode bf d1 d2 (.str "FwdNoClamp"))
    (hr : StyledNode br d2 d1 (.str "RevNoClamp")) (stride : ℕ) (hs : 3 ≤ stride)
    (pixels : List ((Fin 3 → ℝ) × List (Flt ℝ))) (hp : ∀ q ∈ pixels, q.2.length + 3 = stride) :
    ∃ r r', cdlProcess A compat v bf (Spec.image pixels) stride = .ok r ∧
      cdlProcess A compat v br r.out stride = .ok r' ∧
      r'.out = Spec.image (pixels.map fun q => (fun i =>
        (Spec.clip (q.1 i / Spec.fullScale (some d1) * s i + o i) - o i) / s i
          * Spec.fullScale (some d1), q.2)) := by
  let w : (Fin 3 → ℝ) → Fin 3 → ℝ := fun x i =>
    if x i / Spec.fullScale (some d1) * s i + o i < 0 then x i / Spec.fullScale (some d1) * s i + o i
    else (x i / Spec.fullScale (some d1) * s i + o i) ^ p i
  obtain ⟨r, hr1, hr2⟩ := cdlProcess_image A compat v bf d1 d2 _ hf (.inr (by decide)) stride pixels
    hp hs (fun x i => (Spec.luma (w x) + σ * (w x i - Spec.luma (w x))) * Spec.fullScale (some d2)) (by
      intro q hq
      unfold cdlPixel
      rw [if_neg (by decide), if_pos (by decide), hv.resolve,
        cdlFwdNoClamp_pixel hA.powers s o p σ hp0 _ _ q.1 q.2 (w q.1) (fun i => rfl)])
  have hfs2 : (Spec.fullScale (some d2) : ℝ) ≠ 0 := fullScale_ne _
  have back : ∀ q ∈ pixels, cdlPixel A (.str "RevNoClamp") v.resolve (some d2) (some d1)
      (Spec.fins (fun i => (Spec.luma (w q.1) + σ * (w q.1 i - Spec.luma (w q.1)))
        * Spec.fullScale (some d2)) ++ q.2)
      = .ok (Spec.fins (fun i =>
        (Spec.clip (q.1 i / Spec.fullScale (some d1) * s i + o i) - o i) / s i
          * Spec.fullScale (some d1)) ++ q.2) := by
    intro q hq
    unfold cdlPixel
    rw [if_neg (by decide), if_neg (by decide), if_neg (by decide), if_pos (by decide), hv.resolve,
      cdlRevNoClamp_pixel hA.powers s o p σ hp0 hs0 hσ _ _ _ q.2
        (fun i => Spec.luma (w q.1) + σ * (w q.1 i - Spec.luma (w q.1))) (w q.1)]
    · refine congrArg (fun z => Except.ok (Spec.fins z ++ q.2)) (funext fun i => ?_)
      have key : (if w q.1 i < 0 then 0 else (Spec.clip (w q.1 i)) ^ (1 / p i))
          = Spec.clip (q.1 i / Spec.fullScale (some d1) * s i + o i) := by
        simp only [w]
        generalize q.1 i / Spec.fullScale (some d1) * s i + o i = t
        by_cases ht : t < 0
        · rw [if_pos ht, if_pos ht, Spec.clip, max_eq_left ht.le, min_eq_right zero_le_one]
        · have ht0 : 0 ≤ t := not_lt.mp ht
          have hw0 : 0 ≤ t ^ p i := Real.rpow_nonneg ht0 _
          rw [if_neg ht, if_neg (not_lt.mpr hw0), one_div]
          rcases le_or_gt t 1 with h1 | h1
          · rw [clip_of_mem hw0 (Real.rpow_le_one ht0 h1 (hp0 i).le), clip_of_mem ht0 h1,
              Real.rpow_rpow_inv ht0 (hp0 i).ne']
          · have hw1 : 1 < t ^ p i := Real.one_lt_rpow h1 (hp0 i)
            have e1 : Spec.clip (t ^ p i) = 1 := by
              rw [Spec.clip, max_eq_right hw0, min_eq_left hw1.le]
            have e2 : Spec.clip t = 1 := by
              rw [Spec.clip, max_eq_right ht0, min_eq_left h1.le]
            rw [e1, e2, Real.one_rpow]
      rw [key]
    · intro i
      rw [mul_div_cancel_right₀ _ hfs2]
    · intro i
      rw [luma_sat, unsat hσ]
  have step := cdlProcess_chunks A compat v br d2 d1 _ hr (.inr (by decide)) stride hs
    (pixels.map fun q => Spec.fins (fun i => (Spec.luma (w q.1) + σ * (w q.1 i - Spec.luma (w q.1)))
        * Spec.fullScale (some d2)) ++ q.2) (by
      intro c hc
      obtain ⟨q, hq, rfl⟩ := List.mem_map.mp hc
      have := hp q hq
      simp [Spec.fins]; omega)
  rw [py_mapM_map, py_mapM_ok _ _ pixels back, py_ok_bind] at step
  have step' := (show (List.map _ pixels).flatten = r.out by rw [hr2, image_eq, List.map_map]) ▸ step
  refine ⟨r, _, hr1, step', ?out⟩
  case out => rw [image_eq, List.map_map]; rfl

/-- Real arithmetic; infinities and NaN are treated like the C library does for the
bases that occur. -/
noncomputable def realArith : Arith ℝ where
  f32 := id
  pow
    | .fin b, .fin e => if b < 0 ∧ (⌊e⌋ : ℝ) ≠ e then .nan else if b = 0 ∧ e < 0 then .inf false
        else .fin (b ^ e)
    | _, _ => .nan
  log10
    | .fin x => .fin (Real.logb 10 x)
    | v => v

theorem realArith_real : Spec.RealArith realArith := by
  refine ⟨fun x => rfl, ?_, fun x _ => rfl⟩
  intro b e h
  have h1 : ¬ (b < 0 ∧ (⌊e⌋ : ℝ) ≠ e) := by
    rintro ⟨h1, _⟩
    rcases h with h | ⟨h, _⟩ <;> linarith
  have h2 : ¬ (b = 0 ∧ e < 0) := by
    rintro ⟨h1, h2⟩
    rcases h with h | ⟨_, h⟩ <;> linarith
  simp only [realArith, if_neg h1, if_neg h2]

end CLF
