import Verif.Lemmas.Nodes
import Verif.Props.Lut1d

/-! # Property C35: documented styles and interpolations -/

set_option linter.unusedSectionVars false

namespace CLF

variable {K : Type} [Field K] [LinearOrder K] [IsStrictOrderedRing K] [FloorRing K]

theorem foldlM_total {σ α : Type} (f : σ → α → Py σ) (I : σ → Prop) (l : List α)
    (h : ∀ a ∈ l, ∀ s, I s → ∃ s', f s a = .ok s' ∧ I s') :
    ∀ s, I s → ∃ s', l.foldlM f s = .ok s' ∧ I s' := by
  induction l with
  | nil => intro s hs; exact ⟨s, rfl, hs⟩
  | cons a l ih =>
    intro s hs
    obtain ⟨s1, h1, h2⟩ := h a (by simp) s hs
    obtain ⟨s2, h3, h4⟩ := ih (fun b hb => h b (by simp [hb])) s1 h2
    exact ⟨s2, by rw [List.foldlM_cons, h1]; exact h3, h4⟩

/-- A pixel loop whose body succeeds on every pixel succeeds. -/
theorem pixelLoop_total (s : ℕ) (hs : 0 < s) (values : List (Flt K))
    (body : List (Flt K) → List (Flt K) → Py (List (Flt K) × List (Flt K)))
    (h : ∀ vals px, vals.length = values.length → px.length = s → s ≤ values.length →
      ∃ v o, body vals px = .ok (v, o) ∧ v.length = s ∧ o.length = s) :
    ∃ r, pixelLoop s values body = .ok r := by
  rw [pixelLoop_def]
  simp only [hs.ne', if_false, pyDivNat, py_ok_bind]
  obtain ⟨st, h1, _⟩ := foldlM_total (pixelStep s body)
    (fun st => st.1.length = values.length ∧ st.2.length = values.length)
    (List.range (values.length / s)) (by
      rintro p hp ⟨vals, out⟩ ⟨hv, ho⟩
      have hc : p * s + s ≤ values.length := chunk_le (List.mem_range.mp hp) rfl
      simp only at hv ho
      have hsl : (pySlice vals (p * s) ((p + 1) * s)).length = s := by
        rw [pySlice_length _ _ _ (by rw [Nat.succ_mul]; omega), Nat.succ_mul]; omega
      obtain ⟨v, o, hb, lv, lo⟩ := h vals _ hv hsl (by omega)
      refine ⟨(pySplice vals (p * s) v, pySplice out (p * s) o), ?_, ?_, ?_⟩
      · simp only [pixelStep, hb, py_ok_bind, py_pure]
      · rw [pySplice_length _ _ _ (by omega), hv]
      · rw [pySplice_length _ _ _ (by omega), ho])
    (values, List.replicate values.length (Flt.fin 0)) ⟨rfl, by simp⟩
  rw [h1]
  exact ⟨_, rfl⟩

/-- A pixel loop whose body fails on every pixel fails as soon as there is one. -/
theorem pixelLoop_fails (s : ℕ) (hs : 0 < s) (values : List (Flt K)) (hv : s ≤ values.length)
    (body : List (Flt K) → List (Flt K) → Py (List (Flt K) × List (Flt K)))
    (h : ∀ vals px, px.length = s → ∃ e, body vals px = .error e) :
    ∃ e, pixelLoop s values body = .error e := by
  rw [pixelLoop_def]
  simp only [hs.ne', if_false, pyDivNat, py_ok_bind]
  obtain ⟨n, hn⟩ : ∃ n, values.length / s = n + 1 :=
    ⟨values.length / s - 1, by have := Nat.div_pos hv hs; omega⟩
  rw [hn, List.range_succ_eq_map, List.foldlM_cons]
  obtain ⟨e, he⟩ := h values (pySlice values (0 * s) ((0 + 1) * s))
    (by rw [pySlice_length _ _ _ (by simpa using hv)]; simp)
  refine ⟨e, ?_⟩
  simp only [pixelStep, he, py_error_bind]

/-- Whole pixels: a positive stride and at least one pixel, or one pixel (stride 0). -/
def HasPixel (s : ℕ) (v : List (Flt K)) : Prop := v ≠ [] ∧ s ≤ v.length

theorem HasPixel.stride {s : ℕ} {v : List (Flt K)} (h : HasPixel s v) (A : Arith K) (compat : ℕ)
    (k : Kind K) (b : Base K) : ∃ t, 0 < t ∧ t ≤ v.length ∧
      leafProcess A compat k b v s = leafProcess A compat k b v t ∧ (0 < s → t = s) := by
  rcases Nat.eq_zero_or_pos s with rfl | hs
  · exact ⟨v.length, List.length_pos_iff.mpr h.1, le_rfl, leaf_zero A compat k b v,
      fun h => absurd h (lt_irrefl 0)⟩
  · exact ⟨s, hs, h.2, rfl, fun _ => rfl⟩

/-- C35 is false for LUT1D: with `interpolation="cubic"` every input that contains a
pixel raises. -/
theorem C35_cubic_false (A : Arith K) (compat s : ℕ) (b : Base K)
    (hi : b.attrs.get? "interpolation" = some (.str "cubic")) (v : List (Flt K)) (hv : HasPixel s v) :
    ∃ e, leafProcess A compat .lut1d b v s = .error e := by
  obtain ⟨t, ht, htv, he, _⟩ := hv.stride A compat .lut1d b
  rw [he]
  simp only [leafProcess, lut1dProcess]
  cases b.attrE "inBitDepth" with
  | error e => exact ⟨e, rfl⟩
  | ok d1 =>
    cases b.attrE "outBitDepth" with
    | error e => exact ⟨e, rfl⟩
    | ok d2 =>
      cases b.array with
      | error e => exact ⟨e, rfl⟩
      | ok a =>
        have hst : b.styleOf "interpolation" = .str "cubic" := by simp [Base.styleOf, hi]
        simp only [py_ok_bind, hst, if_true]
        refine pixelLoop_fails t ht v htv _ ?_
        intro _ px hpx
        rcases px with _ | ⟨x, xs⟩
        · simp at hpx; omega
        · obtain ⟨n, hn⟩ : ∃ n, min 3 (x :: xs).length = n + 1 := ⟨min 2 xs.length, by simp; omega⟩
          beta_reduce
          rw [hn, chanLoop_eq _ _ _ (by omega), List.take_succ_cons, goChan]
          cases lutNormalize A b.indexMaps d1 (pyGet a.dims 0) 0 x with
          | error e => exact ⟨e, rfl⟩
          | ok y =>
            simp only [py_ok_bind, Arr.lookup1DCubic]
            cases pyGet a.dims 0 with
            | error e => exact ⟨e, rfl⟩
            | ok d => exact ⟨_, rfl⟩

/-- C35 is false for ExposureContrast: with `style="video"` or `style="log"` every input
that contains a pixel raises. -/
theorem C35_contrast_false (A : Arith K) (compat s : ℕ) (e c p : Flt K) (b : Base K)
    (hi : b.attrs.get? "style" = some (.str "video") ∨ b.attrs.get? "style" = some (.str "log"))
    (v : List (Flt K)) (hv : HasPixel s v) :
    ∃ err, leafProcess A compat (.exposureContrast e c p) b v s = .error err := by
  obtain ⟨t, ht, htv, he, _⟩ := hv.stride A compat (.exposureContrast e c p) b
  rw [he]
  simp only [leafProcess, ecProcess]
  cases b.attrE "inBitDepth" with
  | error e => exact ⟨e, rfl⟩
  | ok d1 =>
    cases b.attrE "outBitDepth" with
    | error e => exact ⟨e, rfl⟩
    | ok d2 =>
      simp only [py_ok_bind]
      refine pixelLoop_fails t ht v htv _ ?_
      intro vals px hpx
      rcases px with _ | ⟨x, xs⟩
      · simp at hpx; omega
      · have : ∃ err, ecChannels A (b.styleOf "style") e c p d1 d2 (x :: xs) = .error err := by
          have loop : ∀ f : ℕ → Flt K → Py (Flt K), (∃ err, f 0 x = .error err) →
              ∃ err, chanLoop 3 f (x :: xs) = .error err := by
            rintro f ⟨err, hf⟩
            refine ⟨err, ?_⟩
            rw [chanLoop, show List.range 3 = [0, 1, 2] from rfl, List.foldlM_cons]
            simp only [pyGet_zero, py_ok_bind, hf, py_error_bind]
          rcases hi with hi | hi
          · have hst : b.styleOf "style" = .str "video" := by simp [Base.styleOf, hi]
            rw [hst]
            unfold ecChannels
            rw [if_neg (by decide), if_pos rfl]
            apply loop
            cases pyPow A p (.fin (100 / 183)) with
            | error e => exact ⟨e, rfl⟩
            | ok _ =>
              cases pyPow A (.fin 2) e with
              | error e => exact ⟨e, rfl⟩
              | ok g =>
                simp only [py_ok_bind]
                cases pyDivF g p with
                | error e => exact ⟨e, rfl⟩
                | ok _ => exact ⟨_, rfl⟩
          · have hst : b.styleOf "style" = .str "log" := by simp [Base.styleOf, hi]
            rw [hst]
            unfold ecChannels
            rw [if_neg (by decide), if_neg (by decide), if_pos rfl]
            exact loop _ ⟨_, rfl⟩
        obtain ⟨err, herr⟩ := this
        exact ⟨err, by rw [herr]; rfl⟩

/-- C35 for the remaining interpolation of LUT1D: with a finite one- or three-column
table and no index map, every input is processed.
Missing: `cubic`, for which it is false. -/
theorem C35_linear_partial {m c : ℕ} (A : Arith K) (compat s : ℕ) (b : Base K) (a : Arr K)
    (V : Fin (m + 1) → Fin (c + 1) → K) (ht : Table1D a V) (ha : b.array = .ok a)
    (hm : b.indexMaps = []) (din dout : AVal)
    (hin : b.attrs.get? "inBitDepth" = some din) (hout : b.attrs.get? "outBitDepth" = some dout)
    (hi : b.attrs.get? "interpolation" ≠ some (.str "cubic"))
    (hh : b.attrs.get? "halfDomain" = none) (v : List (Flt K)) (hv : HasPixel s v) :
    ∃ r, leafProcess A compat .lut1d b v s = .ok r := by
  obtain ⟨t, htp, htv, he, _⟩ := hv.stride A compat .lut1d b
  rw [he]
  have e1 : b.attrE "inBitDepth" = .ok (some din) := by simp [Base.attrE, Dict.getE, hin]
  have e2 : b.attrE "outBitDepth" = .ok (some dout) := by simp [Base.attrE, Dict.getE, hout]
  have e3 : b.styleOf "interpolation" ≠ .str "cubic" := by
    unfold Base.styleOf
    split
    · next x hx => intro h; rw [h] at hx; exact hi hx
    · decide
  have e4 : b.flag "halfDomain" = false := by simp [Base.flag, hh]
  simp only [leafProcess, lut1dProcess, e1, e2, ha, py_ok_bind, e3, if_false, e4, hm]
  refine pixelLoop_total t htp v _ ?_
  intro _ px _ hpx _
  have : ∃ o, chanLoop (min 3 px.length) (fun i x => do
      let x ← lutNormalize A [] (some din) (pyGet a.dims 0) i x
      let y ← (if false = true then a.lookup1DHalfDomain x i else a.lookup1DLinear x i)
      pure (A.f32 y)) px = .ok o := by
    have tot : ∀ i (x : Flt K), ∃ y, (do
        let x ← lutNormalize A [] (some din) (pyGet a.dims 0) i x
        let y ← (if false = true then a.lookup1DHalfDomain x i else a.lookup1DLinear x i)
        pure (A.f32 y) : Py (Flt K)) = .ok y := by
      intro i x
      obtain ⟨y, hy⟩ := ht.total i (A.f32 (bitDepthToNormalized x (some din)))
      refine ⟨A.f32 y, ?_⟩
      have : lutNormalize A [] (some din) (pyGet a.dims 0) i x
          = .ok (A.f32 (bitDepthToNormalized x (some din))) := rfl
      rw [this]
      simp only [py_ok_bind, Bool.false_eq_true, if_false, hy, py_pure]
    choose g hg using tot
    exact ⟨_, chanLoop_ok _ _ g px (Nat.min_le_right _ _) fun i _ _ => hg i _⟩
  obtain ⟨o, ho⟩ := this
  have hl := (chanLoop_length ho).2
  refine ⟨o, o, ?_, hl.trans hpx, hl.trans hpx⟩
  simp only [Bool.false_eq_true, if_false] at ho ⊢
  rw [ho]; rfl

/-- C35 for the remaining style of ExposureContrast: with finite exposure and a contrast
that is not negative, every input of pixels with at least three channels is processed.
Missing: `video` and `log`, for which it is false. -/
theorem C35_contrast_partial (A : Arith K) (compat s : ℕ) (e c : K) (p : Flt K) (hc : 0 ≤ c)
    (b : Base K) (din dout : AVal) (hb : StyledNode b din dout (.str "linear")) (hs : 3 ≤ s)
    (v : List (Flt K)) :
    ∃ r, leafProcess A compat (.exposureContrast (.fin e) (.fin c) p) b v s = .ok r := by
  obtain ⟨e1, e2, e3⟩ := hb.attrs
  simp only [leafProcess, ecProcess, e1, e2, py_ok_bind, e3]
  refine pixelLoop_total s (by omega) v _ ?_
  intro vals px hvals hpx hsv
  have tot : ∀ (_ : ℕ) (x : Flt K), ∃ y, (do
      let x := A.f32 (bitDepthToNormalized x (some din))
      let g ← pyPow A (.fin 2) (.fin e)
      let w ← pyPow A (Flt.pmax (.fin 0) (g * x / p)) (.fin c)
      let x := A.f32 (p * w)
      pure (A.f32 (normalizedToBitDepth x (some dout))) : Py (Flt K)) = .ok y := by
    intro _ x
    have h2 : pyPow A (.fin 2) (.fin e) = .ok (A.pow (.fin 2) (.fin e)) := by
      have h0 : ¬ ((2 : K) < 0) := by norm_num
      simp [pyPow, h0]
    have h3 : ∀ y, pyPow A (Flt.pmax (.fin 0) y) (.fin c) = .ok (A.pow (Flt.pmax (.fin 0) y) (.fin c)) := by
      intro y
      cases y with
      | fin y =>
        rw [Flt.pmax_fin]
        simp only [pyPow]
        rw [if_neg (fun h => absurd h.2 (not_lt.mpr hc)),
          if_neg (fun h => absurd h.1 (not_lt.mpr (le_max_left _ _)))]
      | inf n =>
        cases n
        · rfl
        · simp only [Flt.pmax, Flt.lt_fin_inf, Bool.not_true, Bool.false_eq_true, if_false, pyPow]
          rw [if_neg (fun h => absurd h.2 (not_lt.mpr hc)), if_neg (fun h => absurd h.1 (lt_irrefl _))]
      | nan =>
        simp only [Flt.pmax, Flt.lt_nan, Bool.false_eq_true, if_false, pyPow]
        rw [if_neg (fun h => absurd h.2 (not_lt.mpr hc)), if_neg (fun h => absurd h.1 (lt_irrefl _))]
    simp only [h2, py_ok_bind, h3, py_pure]
    exact ⟨_, rfl⟩
  choose g hg using tot
  have ho := chanLoop_ok 3 (fun _ x => do
      let x := A.f32 (bitDepthToNormalized x (some din))
      let g ← pyPow A (.fin 2) (.fin e)
      let w ← pyPow A (Flt.pmax (.fin 0) (g * x / p)) (.fin c)
      let x := A.f32 (p * w)
      pure (A.f32 (normalizedToBitDepth x (some dout)))) g px (by omega) fun i _ _ => hg i _
  have hec : ecChannels A (.str "linear") (.fin e) (.fin c) p (some din) (some dout) px
      = .ok (px.mapIdx fun i x => if i < 3 then g i x else x) := by
    unfold ecChannels; rw [if_pos rfl]; exact ho
  simp only [hec, py_ok_bind, py_pure]
  refine ⟨_, _, rfl, ?_, ?_⟩ <;>
  · rw [List.length_append, pySlice_length _ _ _ (by omega), List.length_take, List.length_mapIdx]
    omega

/-- Hypotheses of the theorems above are satisfiable: one pixel in a stride of three. -/
example : HasPixel 3 ([.fin 1, .fin 2, .fin 3] : List (Flt ℚ)) ∧
    StyledNode ({ attrs := [("inBitDepth", .str "10i"), ("outBitDepth", .str "32f"),
      ("style", .str "linear")] } : Base ℚ) (.str "10i") (.str "32f") (.str "linear") := by
  refine ⟨⟨by simp, le_refl 3⟩, ⟨rfl, rfl, rfl⟩⟩

end CLF
