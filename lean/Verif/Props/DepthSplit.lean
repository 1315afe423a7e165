import Verif.Lemmas.Exposure
import Verif.Lemmas.RoundedList
import Verif.Props.Range

/-! # Bit depths are only a scale

C161: the bit depths of a node may be split off into Ranges before and after it. -/

set_option linter.unusedSectionVars false

namespace CLF

namespace Spec

/-- The depths on the unit scale. -/
def FloatDepth (d : AVal) : Prop := d = .str "16f" ∨ d = .str "32f"

variable {K : Type}

/-- The nodes that work on the unit scale, with the styles they know. -/
inductive UnitKind : Kind K → String → Prop
  | gamma {ps : List (GammaParam K)} {st : String} :
      st ∈ ["basicFwd", "basicRev", "moncurveFwd", "moncurveRev"] → UnitKind (.gamma ps) st
  | log {ps : List (LogParam K)} {st : String} :
      st ∈ ["log10", "log2", "antiLog10", "antiLog2", "logToLin", "linToLog"] → UnitKind (.log ps) st
  | cdl {cc : Bool} {v : CdlValues K} {st : String} :
      st ∈ ["Fwd", "v1.2_Fwd", "FwdNoClamp", "noClampFwd", "Rev", "v1.2_Rev", "RevNoClamp", "noClampRev"] →
      UnitKind (.cdl cc v) st
  | exposure {e c p : Flt K} : UnitKind (.exposureContrast e c p) "linear"

end Spec

variable {K : Type} [Field K] [LinearOrder K] [IsStrictOrderedRing K] [FloorRing K]

/-! ### Loops -/

theorem chan3_go (f : ℕ → Flt K → Py (Flt K)) (px : List (Flt K)) (h : px.length = 3) :
    chanLoop 3 f px = goChan f 0 px := by
  rw [chanLoop_eq _ _ _ h.ge, List.take_of_length_le h.le, List.drop_of_length_le h.le]
  simp only [List.append_nil]
  cases goChan f 0 px <;> rfl

theorem goChan_pre {α β γ : Type} (f : ℕ → α → Py β) (g : ℕ → γ → Py β) (N : α → γ)
    (h : ∀ i x, f i x = g i (N x)) (k : ℕ) (l : List α) : goChan f k l = goChan g k (l.map N) := by
  induction l generalizing k with
  | nil => rfl
  | cons x l ih => rw [List.map_cons, goChan, goChan, h, ih]

theorem goChan_post {α β γ : Type} (f : ℕ → α → Py γ) (g : ℕ → α → Py β) (D : β → γ)
    (h : ∀ i x, f i x = (do let y ← g i x; .ok (D y))) (k : ℕ) (l : List α) :
    goChan f k l = (do let o ← goChan g k l; .ok (o.map D)) := by
  induction l generalizing k with
  | nil => rfl
  | cons x l ih =>
    rw [goChan, goChan, h, ih]
    cases g k x with
    | error e => rfl
    | ok y =>
      simp only [py_ok_bind]
      cases goChan g (k + 1) l <;> rfl

theorem chan3_both (f g : ℕ → Flt K → Py (Flt K)) (N D : Flt K → Flt K) (px : List (Flt K)) (hp : px.length = 3)
    (h : ∀ i x, f i x = (do let y ← g i (N x); .ok (D y))) :
    chanLoop 3 f px = (do let o ← chanLoop 3 g (px.map N); .ok (o.map D)) := by
  rw [chan3_go f px hp, chan3_go g _ (by rw [List.length_map, hp]),
    goChan_post f (fun i x => g i (N x)) D h, goChan_pre (fun i x => g i (N x)) g N (fun _ _ => rfl)]

theorem mapM_both {α β γ δ : Type} (f : α → Py δ) (g : β → Py γ) (N : α → β) (D : γ → δ) (l : List α)
    (h : ∀ x ∈ l, f x = (do let y ← g (N x); .ok (D y))) :
    l.mapM f = (do let o ← (l.map N).mapM g; .ok (o.map D)) := by
  induction l with
  | nil => rfl
  | cons x l ih =>
    rw [List.map_cons, py_mapM_cons, py_mapM_cons, h x (List.mem_cons_self ..),
      ih (fun y hy => h y (List.mem_cons_of_mem _ hy))]
    cases g (N x) with
    | error e => rfl
    | ok y =>
      simp only [py_ok_bind]
      cases (l.map N).mapM g <;> rfl

/-- A loop over pixels, split into scaling, another loop, and scaling. -/
theorem viewLoop_split (G G' : List (Flt K) → Py (List (Flt K))) (N D : Flt K → Flt K)
    (cs : List (List (Flt K))) (hc : ∀ c ∈ cs, c.length = 3)
    (h : ∀ c, c.length = 3 → G c = (do let o ← G' (c.map N); .ok (o.map D)))
    (hg : ∀ c, c.length = 3 → ∀ o, G' c = .ok o → o.length = 3) :
    (do let r ← viewLoop 3 cs.flatten G; .ok r.out : Py _) =
      (do let r ← viewLoop 3 (cs.flatten.map N) G'; .ok (r.out.map D)) := by
  have e1 := viewLoop_chunks 3 (by norm_num) G cs [] hc (by simp) (by
    intro c hc' o ho
    rw [h c (hc c hc')] at ho
    obtain ⟨o', h1, h2⟩ := py_bind_eq_ok.mp ho
    cases h2
    rw [List.length_map]
    exact hg _ (by rw [List.length_map, hc c hc']) _ h1)
  have hc2 : ∀ c ∈ cs.map (List.map N), c.length = 3 := by
    intro c hc'
    obtain ⟨c', h1, rfl⟩ := List.mem_map.mp hc'
    rw [List.length_map, hc c' h1]
  have e2 := viewLoop_chunks 3 (by norm_num) G' (cs.map (List.map N)) [] hc2 (by simp) (fun c hc' o ho =>
    hg c (hc2 c hc') o ho)
  rw [List.append_nil] at e1 e2
  rw [List.map_flatten, e1, e2, mapM_both G G' (List.map N) (List.map D) cs (fun c hc' => h c (hc c hc'))]
  cases (cs.map (List.map N)).mapM G' with
  | error e => rfl
  | ok ps =>
    simp only [py_ok_bind, List.length_nil, List.replicate_zero, List.append_nil]
    rw [List.map_flatten]

/-! ### Scaling -/

/-- What a Range without bounds does to a value, from a depth to the unit scale. -/
def intoUnit (R : Rounding K) (d : AVal) (x : Flt K) : Flt K := R single (toUnitR R x (some d))

/-- From the unit scale to a depth. -/
def outOfUnit (R : Rounding K) (d : AVal) (x : Flt K) : Flt K := R single (fromUnitR R (R single x) (some d))

theorem toUnitR_float (R : Rounding K) (d : AVal) (hd : Spec.FloatDepth d) (x : Flt K) : toUnitR R x (some d) = x := by
  rcases hd with rfl | rfl <;> rfl

theorem fromUnitR_float (R : Rounding K) (d : AVal) (hd : Spec.FloatDepth d) (x : Flt K) :
    fromUnitR R x (some d) = x := by
  rcases hd with rfl | rfl <;> rfl

theorem rangeR_free (R : Rounding K) {b : Base K} {d1 d2 : AVal} (h : FreeRange b d1 d2) (v : List (Flt K)) :
    rangeProcessR R b v = .ok ⟨v.map fun x => R single (fromUnitR R (R single (toUnitR R x (some d1))) (some d2)),
      v.map fun x => R single (fromUnitR R (R single (toUnitR R x (some d1))) (some d2)), true⟩ := by
  rw [rangeR_eq R b d1 d2 v h.inDepth h.outDepth _ rfl none none none none
    (by simp [rangeBoundR, h.minIn, h.noDefault]) (by simp [rangeBoundR, h.maxIn, h.noDefault])
    (by simp [rangeBoundR, h.minOut, h.noDefault]) (by simp [rangeBoundR, h.maxOut, h.noDefault])]
  rw [py_mapM_ok _ (fun x => R single (fromUnitR R (R single (toUnitR R x (some d1))) (some d2)))]
  · rfl
  · intro x _
    simp only [rangeStepR, py_pure, py_ok_bind]

/-! ### The nodes -/

/-- Values through a unit function of channel and value. -/
theorem unit_body (R : Rounding K) (hR : ∀ x, R single (R single x) = R single x) (d1 d2 f1 f2 : AVal)
    (h1 : Spec.FloatDepth f1) (h2 : Spec.FloatDepth f2) (F : ℕ → Flt K → Py (Flt K)) (c : List (Flt K)) (hc : c.length = 3) :
    chanLoop 3 (fun i x => do
      let y ← F i (R single (toUnitR R x (some d1)))
      pure (R single (fromUnitR R (R single y) (some d2)))) c =
    (do let o ← chanLoop 3 (fun i x => do
          let y ← F i (R single (toUnitR R x (some f1)))
          pure (R single (fromUnitR R (R single y) (some f2)))) (c.map (intoUnit R d1))
        .ok (o.map (outOfUnit R d2))) := by
  apply chan3_both _ _ _ _ _ hc
  intro i x
  simp only [toUnitR_float R f1 h1, fromUnitR_float R f2 h2, intoUnit, hR]
  cases F i (R single (toUnitR R x (some d1))) with
  | error e => rfl
  | ok y => simp only [py_ok_bind, py_pure, outOfUnit, hR]

theorem chan3_length (f : ℕ → Flt K → Py (Flt K)) (c o : List (Flt K)) (hc : c.length = 3)
    (h : chanLoop 3 f c = .ok o) : o.length = 3 := by
  rw [(chanLoop_length h).2, hc]

/-- A first loop that starts from the unit scale, anything in between, and a last loop that ends
there. -/
theorem unit_stages (R : Rounding K) (hR : ∀ x, R single (R single x) = R single x) (d1 d2 f1 f2 : AVal)
    (h1 : Spec.FloatDepth f1) (h2 : Spec.FloatDepth f2) (F : ℕ → Flt K → Py (Flt K)) (M : List (Flt K) → Py (Flt K))
    (G : Flt K → ℕ → Flt K → Py (Flt K)) (c : List (Flt K)) (hc : c.length = 3) :
    (do let px ← chanLoop 3 (fun i x => F i (R single (toUnitR R x (some d1)))) c
        let l ← M px
        chanLoop 3 (fun i x => do
          let y ← G l i x
          pure (R single (fromUnitR R (R single y) (some d2)))) px) =
    (do let o ← (do
          let px ← chanLoop 3 (fun i x => F i (R single (toUnitR R x (some f1)))) (c.map (intoUnit R d1))
          let l ← M px
          chanLoop 3 (fun i x => do
            let y ← G l i x
            pure (R single (fromUnitR R (R single y) (some f2)))) px)
        .ok (o.map (outOfUnit R d2))) := by
  have e : chanLoop 3 (fun i x => F i (R single (toUnitR R x (some f1)))) (c.map (intoUnit R d1)) =
      chanLoop 3 (fun i x => F i (R single (toUnitR R x (some d1)))) c := by
    rw [chan3_go _ _ (by rw [List.length_map, hc]), chan3_go _ _ hc]
    refine (goChan_pre _ _ (intoUnit R d1) (fun i x => ?_) 0 c).symm
    rw [toUnitR_float R f1 h1]
    simp only [intoUnit, hR]
  rw [e]
  cases hp : chanLoop 3 (fun i x => F i (R single (toUnitR R x (some d1)))) c with
  | error e => rfl
  | ok px =>
    simp only [py_ok_bind]
    cases M px with
    | error e => rfl
    | ok l =>
      simp only [py_ok_bind]
      have hl := chan3_length _ _ _ hc hp
      rw [chan3_go _ _ hl, chan3_go _ _ hl]
      apply goChan_post
      intro i x
      simp only [fromUnitR_float R f2 h2, hR]
      cases G l i x with
      | error e => rfl
      | ok y => simp only [py_ok_bind, py_pure, outOfUnit, hR]

theorem stages_length (f : ℕ → Flt K → Py (Flt K)) (M : List (Flt K) → Py (Flt K))
    (g : Flt K → ℕ → Flt K → Py (Flt K)) (c o : List (Flt K)) (hc : c.length = 3)
    (h : (do let px ← chanLoop 3 f c; let l ← M px; chanLoop 3 (g l) px) = .ok o) : o.length = 3 := by
  obtain ⟨px, h1, h2⟩ := py_bind_eq_ok.mp h
  obtain ⟨l, _, h3⟩ := py_bind_eq_ok.mp h2
  exact chan3_length _ _ _ (chan3_length _ _ _ hc h1) h3

theorem py_ite_bind {α β : Type} (c : Prop) [Decidable c] (a b : Py α) (f : α → Py β) :
    (if c then a else b) >>= f = if c then a >>= f else b >>= f := by
  by_cases h : c
  · rw [if_pos h, if_pos h]
  · rw [if_neg h, if_neg h]

theorem cdlPixelR_split (R : Rounding K) (hR : ∀ x, R single (R single x) = R single x) (L : Arith K) (st : String)
    (hst : st ∈ ["Fwd", "v1.2_Fwd", "FwdNoClamp", "noClampFwd", "Rev", "v1.2_Rev", "RevNoClamp", "noClampRev"])
    (v : Cdl K) (d1 d2 f1 f2 : AVal) (h1 : Spec.FloatDepth f1) (h2 : Spec.FloatDepth f2) (c : List (Flt K)) (hc : c.length = 3) :
    cdlPixelR R L (.str st) v (some d1) (some d2) c =
      (do let o ← cdlPixelR R L (.str st) v (some f1) (some f2) (c.map (intoUnit R d1)); .ok (o.map (outOfUnit R d2))) ∧
    ∀ o, cdlPixelR R L (.str st) v (some f1) (some f2) c = .ok o → o.length = 3 := by
  have fwd := unit_stages R hR d1 d2 f1 f2 h1 h2 (fun i x => do
    let s ← pyGet v.slope i
    let o ← pyGet v.offset i
    let p ← pyGet v.power i
    let y ← pyPow L (clamp01 (R double (R double (x * s) + o))) p
    pure (R single y)) (lumaR R) (fun l _ x => pure (clamp01 (saturateR R l v.saturation x))) c hc
  have fwdN := unit_stages R hR d1 d2 f1 f2 h1 h2 (fun i x => do
    let s ← pyGet v.slope i
    let o ← pyGet v.offset i
    let tmp := R double (R double (x * s) + o)
    if Flt.lt tmp (.fin 0) then pure (R single tmp)
    else do
      let p ← pyGet v.power i
      pure (R single (L.pow tmp p))) (lumaR R) (fun l _ x => pure (saturateR R l v.saturation x)) c hc
  have rev := unit_stages R hR d1 d2 f1 f2 h1 h2 (fun _ x => pure (R single (clamp01 x))) (lumaR R) (fun l i x => do
    let isat ← pyDivF (.fin 1) v.saturation
    let outSat := saturateR R l (R double isat) x
    let p ← pyGet v.power i
    let ip ← pyDivF (.fin 1) p
    let w ← pyPow L (clamp01 outSat) (R double ip)
    let o ← pyGet v.offset i
    let s ← pyGet v.slope i
    let q ← cdlDivR R outSat (R double (w - o)) s
    pure (clamp01 (R single q))) c hc
  have revN := unit_stages R hR d1 d2 f1 f2 h1 h2 (fun _ x => pure x) (lumaR R) (fun l i x => do
    let isat ← pyDivF (.fin 1) v.saturation
    let outSat := saturateR R l (R double isat) x
    if Flt.lt outSat (.fin 0) then do
      let o ← pyGet v.offset i
      let s ← pyGet v.slope i
      cdlDivR R outSat (R double (clamp01 outSat - o)) s
    else do
      let p ← pyGet v.power i
      let ip ← pyDivF (.fin 1) p
      let w ← pyPow L (clamp01 outSat) (R double ip)
      let o ← pyGet v.offset i
      let s ← pyGet v.slope i
      cdlDivR R outSat (R double (w - o)) s) c hc
  simp only [bind_assoc, pure_bind] at fwd fwdN rev revN
  simp only [List.mem_cons, List.not_mem_nil, or_false] at hst
  rcases hst with rfl | rfl | rfl | rfl | rfl | rfl | rfl | rfl
  all_goals
    unfold cdlPixelR
    simp only [AVal.str.injEq, String.reduceEq, or_true, true_or, or_self, if_true, if_false]
  · exact ⟨by simpa only [cdlFwdR, bind_assoc, pure_bind] using fwd, fun o h => stages_length _ _ _ _ _ hc h⟩
  · exact ⟨by simpa only [cdlFwdR, bind_assoc, pure_bind] using fwd, fun o h => stages_length _ _ _ _ _ hc h⟩
  · exact ⟨by simpa only [cdlFwdNoClampR, bind_assoc, pure_bind] using fwdN, fun o h => stages_length _ _ _ _ _ hc h⟩
  · exact ⟨by simpa only [cdlFwdNoClampR, bind_assoc, pure_bind] using fwdN, fun o h => stages_length _ _ _ _ _ hc h⟩
  · exact ⟨by simpa only [cdlRevR, bind_assoc, pure_bind] using rev, fun o h => stages_length _ _ _ _ _ hc h⟩
  · exact ⟨by simpa only [cdlRevR, bind_assoc, pure_bind] using rev, fun o h => stages_length _ _ _ _ _ hc h⟩
  · exact ⟨by simpa only [cdlRevNoClampR, bind_assoc, pure_bind, py_ite_bind] using revN, fun o h => stages_length _ _ _ _ _ hc h⟩
  · exact ⟨by simpa only [cdlRevNoClampR, bind_assoc, pure_bind, py_ite_bind] using revN, fun o h => stages_length _ _ _ _ _ hc h⟩

/-- A node of these kinds, split. -/
theorem leafR_split (E : Evaluator K) (hR : ∀ x, E.rounding single (E.rounding single x) = E.rounding single x)
    (compat : ℕ) (k : Kind K) (st : String) (hk : Spec.UnitKind k st) (b b' : Base K) (d1 d2 f1 f2 : AVal)
    (hb : StyledNode b d1 d2 (.str st)) (hb' : StyledNode b' f1 f2 (.str st))
    (h1 : Spec.FloatDepth f1) (h2 : Spec.FloatDepth f2) (cs : List (List (Flt K))) (hc : ∀ c ∈ cs, c.length = 3) :
    (do let r ← leafProcessR E compat k b cs.flatten 3; .ok r.out : Py _) =
      (do let r ← leafProcessR E compat k b' (cs.flatten.map (intoUnit E.rounding d1)) 3
          .ok (r.out.map (outOfUnit E.rounding d2))) := by
  obtain ⟨e1, e2, e3⟩ := hb.attrs
  obtain ⟨e1', e2', e3'⟩ := hb'.attrs
  cases hk with
  | exposure =>
    simp only [leafProcessR]
    rw [ecProcessR_view _ _ _ _ _ b d1 d2 hb, ecProcessR_view _ _ _ _ _ b' f1 f2 hb']
    exact viewLoop_split _ _ _ _ cs hc (fun c hc' => unit_body E.rounding hR d1 d2 f1 f2 h1 h2
      (fun _ x => ecTone E.rounding E.library _ _ _ x) c hc') (fun c hc' o ho => chan3_length _ _ _ hc' ho)
  | @gamma ps st hst =>
    simp only [leafProcessR, gammaProcessR, e1, e2, e3, e1', e2', e3', py_ok_bind]
    cases gammaParams ps with
    | error e => rfl
    | ok params =>
      simp only [py_ok_bind]
      obtain ⟨f, hf⟩ : ∃ f, gammaStyleR E.rounding E.library (.str st) = some f := by
        simp only [List.mem_cons, List.not_mem_nil, or_false] at hst
        rcases hst with rfl | rfl | rfl | rfl <;> exact ⟨_, rfl⟩
      simp only [hf]
      refine viewLoop_split _ _ _ _ cs hc (fun c hc' => ?_) (fun c hc' o ho => chan3_length _ _ _ hc' ho)
      have := unit_body E.rounding hR d1 d2 f1 f2 h1 h2
        (fun i x => do let (g, o) ← pyGet params i; f g o x) c hc'
      simpa only [bind_assoc, pure_bind] using this
  | @log ps st hst =>
    simp only [leafProcessR, logProcessR, e1, e2, e3, e1', e2', e3', py_ok_bind]
    cases logParamsR E.rounding ps with
    | error e => rfl
    | ok params =>
      simp only [py_ok_bind]
      obtain ⟨f, hf⟩ : ∃ f, logStyleR E.rounding E.library (.str st) = some f := by
        simp only [List.mem_cons, List.not_mem_nil, or_false] at hst
        rcases hst with rfl | rfl | rfl | rfl | rfl | rfl <;> exact ⟨_, rfl⟩
      simp only [hf]
      refine viewLoop_split _ _ _ _ cs hc (fun c hc' => ?_) (fun c hc' o ho => chan3_length _ _ _ hc' ho)
      have := unit_body E.rounding hR d1 d2 f1 f2 h1 h2
        (fun i x => do let p ← pyGet params i; f p x) c hc'
      simpa only [bind_assoc, pure_bind] using this
  | @cdl cc v st hst =>
    simp only [leafProcessR, cdlProcessR, e1, e2, e3, e1', e2', e3', py_ok_bind]
    simp only [show ((3 : ℕ) = 0) = False from by norm_num, show ((3 : ℕ) < 3) = False from by norm_num, if_false]
    by_cases hv : (!hasFeature compat autodesk && cdlVendorStyles.contains (AVal.str st)) = true
    · rw [if_pos hv, if_pos hv]; rfl
    · rw [if_neg hv, if_neg hv]
      exact viewLoop_split _ _ _ _ cs hc
        (fun c hc' => (cdlPixelR_split E.rounding hR E.library st hst v.resolve d1 d2 f1 f2 h1 h2 c hc').1)
        (fun c hc' => (cdlPixelR_split E.rounding hR E.library st hst v.resolve d1 d2 f1 f2 h1 h2 c hc').2)

/-- Two LUT nodes that differ in their input depths only, without index maps. -/
structure SameLut (E : Evaluator K) (b b' : Base K) (d1 f1 : AVal) : Prop where
  inDepth : b.attrE "inBitDepth" = .ok (some d1)
  inDepth' : b'.attrE "inBitDepth" = .ok (some f1)
  outDepth : b'.attrE "outBitDepth" = b.attrE "outBitDepth"
  interpolation : b'.styleOf "interpolation" = b.styleOf "interpolation"
  halfDomain : b'.flag "halfDomain" = b.flag "halfDomain"
  array : b'.array = b.array
  noMaps : b.indexMaps = []
  noMaps' : b'.indexMaps = []
  table : E.table b' = E.table b

theorem norm_split (R : Rounding K) (hR : ∀ x, R single (R single x) = R single x) (d1 f1 : AVal)
    (h1 : Spec.FloatDepth f1) (d : ℕ → Py ℕ) (i : ℕ) (x : Flt K) :
    lutNormalizeR R [] (some d1) (d i) i x = lutNormalizeR R [] (some f1) (d i) i (intoUnit R d1 x) := by
  unfold lutNormalizeR
  simp only [List.length_nil, if_false, show ¬ (1 < 0) from by norm_num, show ¬ (0 < 0) from by norm_num,
    toUnitR_float R f1 h1, intoUnit, hR]

theorem assign3R_keeps (R : Rounding K) (px new o : List (Flt K)) (hp : px.length = 3) (h : assign3R R px new = .ok o) :
    o.length = 3 := by
  unfold assign3R at h
  split at h <;> cases h <;> simp [hp]

theorem lutR_split (E : Evaluator K) (hR : ∀ x, E.rounding single (E.rounding single x) = E.rounding single x)
    (compat : ℕ) (k : Kind K) (hk : k = .lut1d ∨ k = .lut3d) (b b' : Base K) (d1 f1 : AVal) (hb : SameLut E b b' d1 f1)
    (h1 : Spec.FloatDepth f1) (cs : List (List (Flt K))) (hc : ∀ c ∈ cs, c.length = 3) :
    (do let r ← leafProcessR E compat k b cs.flatten 3; .ok r.out : Py _) =
      (do let r ← leafProcessR E compat k b' (cs.flatten.map (intoUnit E.rounding d1)) 3; .ok r.out) := by
  have hid : ∀ r : Res K, r.out = r.out.map id := fun r => (List.map_id _).symm
  rcases hk with rfl | rfl
  · simp only [leafProcessR, lut1dProcessR, hb.inDepth, hb.inDepth', hb.outDepth, hb.interpolation, hb.halfDomain, hb.array,
      hb.noMaps, hb.noMaps', hb.table, py_ok_bind]
    cases b.attrE "outBitDepth" with
    | error e => rfl
    | ok d2 =>
      simp only [py_ok_bind]
      cases b.array with
      | error e => rfl
      | ok a =>
        simp only [py_ok_bind]
        have := viewLoop_split (fun px => chanLoop (min 3 px.length) (fun i x => do
            let x ← lutNormalizeR E.rounding [] (some d1) (pyGet a.dims 0) i x
            let y ←
              if b.styleOf "interpolation" = .str "cubic" then a.lookup1DCubic x i
              else if b.flag "halfDomain" then a.lookup1DHalfDomainInterpolatedR E.rounding (E.table b) x i
              else a.lookup1DLinearR E.rounding x i
            pure (E.rounding single y)) px)
          (fun px => chanLoop (min 3 px.length) (fun i x => do
            let x ← lutNormalizeR E.rounding [] (some f1) (pyGet a.dims 0) i x
            let y ←
              if b.styleOf "interpolation" = .str "cubic" then a.lookup1DCubic x i
              else if b.flag "halfDomain" then a.lookup1DHalfDomainInterpolatedR E.rounding (E.table b) x i
              else a.lookup1DLinearR E.rounding x i
            pure (E.rounding single y)) px) (intoUnit E.rounding d1) id cs hc
          (fun c hc' => by
            simp only [List.length_map, hc', min_self]
            apply chan3_both _ _ _ _ _ hc'
            intro i x
            rw [norm_split E.rounding hR d1 f1 h1 (fun _ => pyGet a.dims 0) i x]
            exact (bind_pure _).symm)
          (fun c hc' o ho => by
            simp only [hc', min_self] at ho
            exact chan3_length _ _ _ hc' ho)
        simp only [List.map_id] at this
        exact this
  · simp only [leafProcessR, lut3dProcessR, hb.inDepth, hb.inDepth', hb.outDepth, hb.interpolation, hb.array,
      hb.noMaps, hb.noMaps', py_ok_bind]
    cases b.attrE "outBitDepth" with
    | error e => rfl
    | ok d2 =>
      simp only [py_ok_bind]
      cases b.array with
      | error e => rfl
      | ok a =>
        simp only [py_ok_bind]
        have := viewLoop_split (fun px => do
            let px ← chanLoop (min 3 px.length)
              (fun i x => lutNormalizeR E.rounding [] (some d1) (pyGet a.dims i) i x) px
            if b.styleOf "interpolation" = .str "trilinear" then do
              let c ← a.lookup3DTrilinearR E.rounding px
              assign3R E.rounding px c
            else if b.styleOf "interpolation" = .str "tetrahedral" then do
              let c ← a.lookup3DTetrahedralR E.rounding px
              assign3R E.rounding px c
            else pure px)
          (fun px => do
            let px ← chanLoop (min 3 px.length)
              (fun i x => lutNormalizeR E.rounding [] (some f1) (pyGet a.dims i) i x) px
            if b.styleOf "interpolation" = .str "trilinear" then do
              let c ← a.lookup3DTrilinearR E.rounding px
              assign3R E.rounding px c
            else if b.styleOf "interpolation" = .str "tetrahedral" then do
              let c ← a.lookup3DTetrahedralR E.rounding px
              assign3R E.rounding px c
            else pure px) (intoUnit E.rounding d1) id cs hc
          (fun c hc' => by
            have e : chanLoop 3 (fun i x => lutNormalizeR E.rounding [] (some d1) (pyGet a.dims i) i x) c =
                chanLoop 3 (fun i x => lutNormalizeR E.rounding [] (some f1) (pyGet a.dims i) i x)
                  (c.map (intoUnit E.rounding d1)) := by
              rw [chan3_go _ _ hc', chan3_go _ _ (by rw [List.length_map, hc'])]
              exact goChan_pre _ _ _ (fun i x => norm_split E.rounding hR d1 f1 h1 (fun i => pyGet a.dims i) i x) 0 c
            simp only [List.length_map, hc', min_self, e, List.map_id]
            exact (bind_pure _).symm)
          (fun c hc' o ho => by
            simp only [hc', min_self] at ho
            obtain ⟨px, h1, h2⟩ := py_bind_eq_ok.mp ho
            have hl := chan3_length _ _ _ hc' h1
            split at h2
            · obtain ⟨c, _, h3⟩ := py_bind_eq_ok.mp h2
              exact assign3R_keeps _ _ _ _ hl h3
            · split at h2
              · obtain ⟨c, _, h3⟩ := py_bind_eq_ok.mp h2
                exact assign3R_keeps _ _ _ _ hl h3
              · cases h2; exact hl)
        simp only [List.map_id] at this
        exact this

/-! ### Lists -/

theorem runNodesR_plain (E : Evaluator K) (compat stride : ℕ) (g : Bool) (prev : Option Depth) (n : Node K)
    (rest : List (Node K)) (s : Res K) (hn : n.attr "bypass" = none) :
    runNodesR E compat stride g prev (n :: rest) s =
      (do let r ← n.processR E compat stride s.out
          runNodesR E compat stride g (some n.outDepth) rest (s.step r)) := by
  rw [runNodesR.eq_def]
  simp only [hn, Option.isNone_none, Bool.true_or, if_true, pure_bind]

theorem listR_one (E : Evaluator K) (compat stride : ℕ) (n : Node K) (hn : n.attr "bypass" = none) (v : List (Flt K)) :
    processListR E compat [n] v stride = (do
      let r ← n.processR E compat stride (v.map (E.rounding single))
      .ok r.out) := by
  unfold processListR
  simp only [runNodesR_plain E compat stride false none n [] _ hn, bind_assoc]
  congr 1

theorem listR_cons (E : Evaluator K) (compat stride : ℕ) (n : Node K) (ns : List (Node K))
    (hn : n.attr "bypass" = none) (g : Bool) (prev : Option Depth) (s : Res K) :
    (do let r ← runNodesR E compat stride g prev (n :: ns) s; .ok r.out : Py _) = (do
      let r ← n.processR E compat stride s.out
      let q ← runNodesR E compat stride g (some n.outDepth) ns (s.step r)
      .ok q.out) := by
  rw [runNodesR_plain E compat stride g prev n ns _ hn, bind_assoc]

/-! ### C161 -/

/-- A Gamma, Log, ASC CDL or linear ExposureContrast node, in every style it knows, is the same as a
Range from its input depth to a float depth, the node with float depths, and a Range to its output
depth: bit for bit, for infinite and undefined values and for errors too. -/
theorem C161_split (E : Evaluator K) (hR : ∀ x, E.rounding single (E.rounding single x) = E.rounding single x)
    (compat : ℕ) (k : Kind K) (st : String) (hk : Spec.UnitKind k st) (b b' r1 r2 : Base K) (d1 d2 f1 f2 f3 f4 : AVal)
    (hb : StyledNode b d1 d2 (.str st)) (hb' : StyledNode b' f1 f2 (.str st))
    (hr1 : FreeRange r1 d1 f3) (hr2 : FreeRange r2 f4 d2)
    (hf : ∀ f ∈ [f1, f2, f3, f4], Spec.FloatDepth f) (hby : ∀ c ∈ [b, b', r1, r2], c.attrs.get? "bypass" = none)
    (pixels : List (List (Flt K))) (hp : ∀ p ∈ pixels, p.length = 3) :
    processListR E compat [.leaf k b] pixels.flatten 3 =
      processListR E compat [.leaf .range r1, .leaf k b', .leaf .range r2] pixels.flatten 3 := by
  have g1 := hf f1 (by simp)
  have g2 := hf f2 (by simp)
  have g3 := hf f3 (by simp)
  have g4 := hf f4 (by simp)
  rw [listR_one _ _ _ (.leaf k b) (hby b (by simp))]
  unfold processListR
  simp only [py_pure]
  rw [listR_cons _ _ _ (.leaf .range r1) _ (hby r1 (by simp))]
  simp only [Node.processR]
  rw [show ∀ v, leafProcessR E compat .range r1 v 3 = rangeProcessR E.rounding r1 v from fun _ => rfl,
    rangeR_free _ hr1, py_ok_bind, listR_cons _ _ _ (.leaf k b') _ (hby b' (by simp))]
  simp only [Node.processR, Res.step, fromUnitR_float _ f3 g3, hR]
  rw [List.map_flatten]
  have hp' : ∀ c ∈ pixels.map (List.map (E.rounding single)), c.length = 3 := by
    intro c hc
    obtain ⟨c', h1, rfl⟩ := List.mem_map.mp hc
    rw [List.length_map, hp c' h1]
  rw [leafR_split E hR compat k st hk b b' d1 d2 f1 f2 hb hb' g1 g2 _ hp']
  rw [show intoUnit E.rounding d1 = fun x => E.rounding single (toUnitR E.rounding x (some d1)) from rfl]
  congr 1
  funext r
  rw [listR_cons _ _ _ (.leaf .range r2) _ (hby r2 (by simp))]
  simp only [Node.processR]
  rw [show ∀ v, leafProcessR E compat .range r2 v 3 = rangeProcessR E.rounding r2 v from fun _ => rfl,
    rangeR_free _ hr2, py_ok_bind]
  rw [runNodesR]
  simp only [py_ok_bind, toUnitR_float _ f4 g4]
  rfl

/-- A 1D or 3D LUT without index maps, in every interpolation and with the half domain or without, is
a Range from its input depth to a float depth followed by the same table with the float depth. -/
theorem C161_lut (E : Evaluator K) (hR : ∀ x, E.rounding single (E.rounding single x) = E.rounding single x)
    (compat : ℕ) (k : Kind K) (hk : k = .lut1d ∨ k = .lut3d) (b b' r1 : Base K) (d1 f1 f3 : AVal)
    (hb : SameLut E b b' d1 f1) (hr1 : FreeRange r1 d1 f3) (hf : ∀ f ∈ [f1, f3], Spec.FloatDepth f)
    (hby : ∀ c ∈ [b, b', r1], c.attrs.get? "bypass" = none)
    (pixels : List (List (Flt K))) (hp : ∀ p ∈ pixels, p.length = 3) :
    processListR E compat [.leaf k b] pixels.flatten 3 =
      processListR E compat [.leaf .range r1, .leaf k b'] pixels.flatten 3 := by
  have g1 := hf f1 (by simp)
  have g3 := hf f3 (by simp)
  rw [listR_one _ _ _ (.leaf k b) (hby b (by simp))]
  unfold processListR
  simp only [py_pure]
  rw [listR_cons _ _ _ (.leaf .range r1) _ (hby r1 (by simp))]
  simp only [Node.processR]
  rw [show ∀ v, leafProcessR E compat .range r1 v 3 = rangeProcessR E.rounding r1 v from fun _ => rfl,
    rangeR_free _ hr1, py_ok_bind, listR_cons _ _ _ (.leaf k b') _ (hby b' (by simp))]
  simp only [Node.processR, Res.step, fromUnitR_float _ f3 g3, hR]
  rw [List.map_flatten]
  have hp' : ∀ c ∈ pixels.map (List.map (E.rounding single)), c.length = 3 := by
    intro c hc
    obtain ⟨c', h1, rfl⟩ := List.mem_map.mp hc
    rw [List.length_map, hp c' h1]
  rw [lutR_split E hR compat k hk b b' d1 f1 hb g1 _ hp']
  rw [show intoUnit E.rounding d1 = fun x => E.rounding single (toUnitR E.rounding x (some d1)) from rfl]
  congr 1

/-- In IEEE arithmetic. -/
theorem C161_ieee (E : Evaluator K) (hE : E.rounding = ieee)
    (compat : ℕ) (k : Kind K) (st : String) (hk : Spec.UnitKind k st) (b b' r1 r2 : Base K) (d1 d2 f1 f2 f3 f4 : AVal)
    (hb : StyledNode b d1 d2 (.str st)) (hb' : StyledNode b' f1 f2 (.str st))
    (hr1 : FreeRange r1 d1 f3) (hr2 : FreeRange r2 f4 d2)
    (hf : ∀ f ∈ [f1, f2, f3, f4], Spec.FloatDepth f) (hby : ∀ c ∈ [b, b', r1, r2], c.attrs.get? "bypass" = none)
    (pixels : List (List (Flt K))) (hp : ∀ p ∈ pixels, p.length = 3) :
    processListR E compat [.leaf k b] pixels.flatten 3 =
      processListR E compat [.leaf .range r1, .leaf k b', .leaf .range r2] pixels.flatten 3 :=
  C161_split E (by rw [hE]; exact single_idem) compat k st hk b b' r1 r2 d1 d2 f1 f2 f3 f4 hb hb' hr1 hr2 hf hby pixels hp

/-- A node with depths and a style. -/
def depthBase (d1 d2 : String) (more : Dict AVal) : Base ℚ :=
  { attrs := [("inBitDepth", .str d1), ("outBitDepth", .str d2)] ++ more }

/-- With a style the node does not know its depths are not applied: split in this way, the list
scales 255 to 1023, but the node leaves it as it is. -/
theorem C161_unknown_false : ∃ l l' : List (Flt ℚ),
    processListR ⟨ieee, fun _ => single, ratArith⟩ 3
      [.leaf (.gamma []) (depthBase "8i" "10i" [("style", .str "basic")])] [.fin 255, .fin 0, .fin 0] 3 = .ok l ∧
    processListR ⟨ieee, fun _ => single, ratArith⟩ 3
      [.leaf .range (depthBase "8i" "32f" []), .leaf (.gamma []) (depthBase "32f" "32f" [("style", .str "basic")]),
        .leaf .range (depthBase "32f" "10i" [])] [.fin 255, .fin 0, .fin 0] 3 = .ok l' ∧
    l.head? = some (.fin 255) ∧ l'.head? = some (.fin 1023) :=
  ⟨[.fin 255, .fin 0, .fin 0], [.fin 1023, .fin 0, .fin 0], by decide +kernel, by decide +kernel, rfl, rfl⟩

/-- A fourth channel is not scaled by the node: an opaque eight-bit pixel keeps the alpha 255 on the
ten-bit scale, whereas the Ranges make it 1023. -/
theorem C161_alpha_false :
    processListR ⟨ieee, fun _ => single, ratArith⟩ 3
      [.leaf (.cdl false {}) (depthBase "8i" "10i" [("style", .str "Fwd")])]
      [.fin 0, .fin 0, .fin 0, .fin 255] 4 = .ok [.fin 0, .fin 0, .fin 0, .fin 255] ∧
    processListR ⟨ieee, fun _ => single, ratArith⟩ 3
      [.leaf .range (depthBase "8i" "32f" []), .leaf (.cdl false {}) (depthBase "32f" "32f" [("style", .str "Fwd")]),
        .leaf .range (depthBase "32f" "10i" [])]
      [.fin 0, .fin 0, .fin 0, .fin 255] 4 = .ok [.fin 0, .fin 0, .fin 0, .fin 1023] := by
  constructor <;> decide +kernel

/-! ### Examples -/

/-- A logarithm from ten bits to twelve. -/
example (L : Arith ℚ) (compat : ℕ) (pixels : List (List (Flt ℚ))) (hp : ∀ p ∈ pixels, p.length = 3) :
    processListR ⟨ieee, fun _ => single, L⟩ compat
      [.leaf (.log []) (depthBase "10i" "12i" [("style", .str "logToLin")])] pixels.flatten 3 =
    processListR ⟨ieee, fun _ => single, L⟩ compat
      [.leaf .range (depthBase "10i" "32f" []), .leaf (.log []) (depthBase "32f" "32f" [("style", .str "logToLin")]),
        .leaf .range (depthBase "32f" "12i" [])] pixels.flatten 3 :=
  C161_ieee _ rfl compat _ "logToLin" (.log (by decide)) _ _ _ _ (.str "10i") (.str "12i") (.str "32f") (.str "32f")
    (.str "32f") (.str "32f") ⟨rfl, rfl, rfl⟩ ⟨rfl, rfl, rfl⟩ ⟨rfl, rfl, rfl, rfl, rfl, rfl, rfl⟩
    ⟨rfl, rfl, rfl, rfl, rfl, rfl, rfl⟩ (by simp [Spec.FloatDepth]) (by simp [depthBase, Dict.get?]) pixels hp

/-- A table read with eight bits. -/
def bitTable (d : String) : Base ℚ :=
  { attrs := [("inBitDepth", .str d), ("outBitDepth", .str "32f"), ("interpolation", .str "linear")]
    elements := [.array { dims := [3, 1], values := [.fin 0, .fin (1 / 4), .fin 1] }] }

example (L : Arith ℚ) (compat : ℕ) (pixels : List (List (Flt ℚ))) (hp : ∀ p ∈ pixels, p.length = 3) :
    processListR ⟨ieee, fun _ => single, L⟩ compat [.leaf .lut1d (bitTable "8i")] pixels.flatten 3 =
    processListR ⟨ieee, fun _ => single, L⟩ compat
      [.leaf .range (depthBase "8i" "16f" []), .leaf .lut1d (bitTable "16f")] pixels.flatten 3 :=
  C161_lut ⟨ieee, fun _ => single, L⟩ (fun x => single_idem x) compat .lut1d (.inl rfl) (bitTable "8i")
    (bitTable "16f") (depthBase "8i" "16f" []) (.str "8i") (.str "16f") (.str "16f")
    ⟨rfl, rfl, rfl, rfl, rfl, rfl, rfl, rfl, rfl⟩ ⟨rfl, rfl, rfl, rfl, rfl, rfl, rfl⟩
    (by simp [Spec.FloatDepth]) (by simp [depthBase, bitTable, Dict.get?]) pixels hp

end CLF
