import Verif.Props.Ocio
import Verif.Props.Inverse
import Verif.Props.Spi
import Verif.Props.Log

/-!
# Inverse OpenColorIO transforms (C85)
-/

set_option linter.unusedSectionVars false

namespace CLF

variable {K : Type} [Field K] [LinearOrder K] [IsStrictOrderedRing K] [FloorRing K]

/-- The first list followed by the second gives the pixels back. -/
def Spec.Undoes (A : Arith K) (compat : ℕ) (ns ms : List (Node K)) (pixels : List (Fin 3 → K)) : Prop :=
  ∃ w, processList A compat ns (pixelValues pixels) 3 = .ok w ∧
    processList A compat ms w 3 = .ok (pixelValues pixels)

theorem inverseIndexMap_ne {n c : ℕ} {samples : List (Flt K)} {a b : Flt K} {ns : List (Node K)}
    (h : inverseIndexMap n c samples a b = .ok ns) : ns ≠ [] := by
  unfold inverseIndexMap at h
  obtain ⟨maps, _, h⟩ := py_bind_eq_ok.mp h
  obtain ⟨rows, _, h⟩ := py_bind_eq_ok.mp h
  simp only at h
  split at h
  · obtain ⟨_, _, h⟩ := py_bind_eq_ok.mp h
    obtain ⟨_, _, h⟩ := py_bind_eq_ok.mp h
    obtain ⟨_, _, h⟩ := py_bind_eq_ok.mp h
    obtain ⟨_, _, h⟩ := py_bind_eq_ok.mp h
    obtain ⟨_, _, h⟩ := py_bind_eq_ok.mp h
    cases h
    simp
  · obtain ⟨_, _, h⟩ := py_bind_eq_ok.mp h
    obtain ⟨_, _, h⟩ := py_bind_eq_ok.mp h
    obtain ⟨_, _, h⟩ := py_bind_eq_ok.mp h
    cases h
    simp

/-- C85, as far as it holds: a `.spi1d` file with strictly increasing columns, converted in
both directions with index maps, gives lists that undo each other on the range and on the
values of the table.  Missing: inverse matrices and groups (`C85_false`). -/
theorem C85_file_partial (A : Arith K) (hA : A.Exact) (compat compat' : ℕ) (fmt : Flt K → Txt)
    (env : OcioEnv K) (henv : env.formats.Perm (shippedFormats A compat fmt)) (him : env.useIndexMaps = true)
    (src : Txt) (he : Spec.Extension (env.path src) "spi1d".toList) (t : Txt)
    (ht : env.files (env.path src) = .ok t)
    {m c : ℕ} (hc : c = 0 ∨ c = 2) (V : Fin (m + 2) → Fin (c + 1) → K)
    (hV : ∀ j, StrictMono fun k => V k j) {lo hi : K} (h : lo < hi)
    (hp : spi1dParse t = .ok ⟨m + 2, c + 1, Spec.rowMajor fun i j => .fin (V i j), .fin lo, .fin hi⟩) :
    ∃ fwd inv, convertTransform env (.file src (.str "linear") true) = .ok fwd ∧
      convertTransform env (.file src (.str "linear") false) = .ok inv ∧
      (∀ xs : List (Fin 3 → K), (∀ x ∈ xs, ∀ i, lo ≤ x i ∧ x i ≤ hi) →
        Spec.Undoes A compat' fwd inv xs) ∧
      (∀ ys : List (Fin 3 → K), (∀ y ∈ ys, ∀ i : Fin 3, V 0 (Spec.column c i) ≤ y i ∧
          y i ≤ V (Fin.last (m + 1)) (Spec.column c i)) → Spec.Undoes A compat' inv fwd ys) := by
  obtain ⟨fwd, inv, e1, e2, h1, h2⟩ := C56_inverse A hA compat' hc V hV h
  have key : ∀ (f : Bool) (ns : List (Node K)), ns ≠ [] →
      readSpi1d t (!f) (.str "linear") env.useIndexMaps env.useHalfDomain = .ok ns →
      convertTransform env (.file src (.str "linear") f) = .ok ns := by
    intro f ns hne hr
    unfold convertTransform convertFile
    rw [(C52_read A compat fmt env.formats henv _ _ he env.files t ht
      ⟨!f, .str "linear", env.useIndexMaps, env.useHalfDomain⟩).1 rfl]
    simp only [hr]
    show (do let ns ← Except.ok (Spec.found ns); _) = _
    rw [found_some hne]
    rfl
  refine ⟨fwd, inv, key true fwd ?_ ?_, key false inv ?_ ?_, h1, h2⟩
  · unfold spi1dForward at e1
    obtain ⟨lut, _, e1⟩ := py_bind_eq_ok.mp e1
    cases e1
    simp
  · unfold readSpi1d
    rw [hp, py_ok_bind]
    exact e1
  · exact inverseIndexMap_ne e2
  · unfold readSpi1d
    rw [hp, py_ok_bind]
    simp only [him]
    exact e2

/-- A file with the squares of 0, 1, 2 over [-1, 3]. -/
example : ∃ (env : OcioEnv ℚ) (t : Txt), Spec.Extension (env.path "a.spi1d".toList) "spi1d".toList ∧
    env.path "a.spi1d".toList = "luts/a.spi1d".toList ∧
    env.files (env.path "a.spi1d".toList) = .ok t ∧
    spi1dParse t = .ok ⟨3, 1, Spec.rowMajor fun (i : Fin 3) (_ : Fin 1) => .fin ((i : ℕ) * (i : ℕ) : ℚ),
      .fin (-1), .fin 3⟩ := by
  obtain ⟨t, ns, -, h, -⟩ := C53_exact_partial ratArith (fun _ => rfl) 0 numText_str12
    (m := 1) (c := 0) (.inl rfl) (fun i _ => ((i : ℕ) * (i : ℕ) : ℚ)) (by
      have : ∀ i : Fin 3, (dec12 (SFlt.ofFlt (.fin ((i : ℕ) * (i : ℕ) : ℚ)))).toFlt
          = .fin ((i : ℕ) * (i : ℕ) : ℚ) := by decide +kernel
      exact fun i _ => this i) (lo := -1) (hi := 3) ⟨-1000000, by norm_num⟩ ⟨3000000, by norm_num⟩ (by norm_num)
  refine ⟨⟨[], fun _ => .ok t, some "luts".toList, true, true⟩, t, ?_, rfl, rfl, h⟩
  exact ⟨"spi1d".toList, ⟨"luts/".toList, ['a'], rfl, .inr ⟨"luts".toList, rfl⟩, by decide, ⟨'a', by decide⟩,
    by decide, by decide⟩, by decide +kernel⟩

/-- C85, as far as it holds: logarithms to the bases 10 and 2, converted in both directions,
undo each other except that values below the smallest normal number are raised to it. -/
theorem C85_log_partial (A : Arith ℝ) (hA : Spec.RealArith A) (compat : ℕ) (env : OcioEnv ℝ) (base : ℝ)
    (hb : base = 10 ∨ base = 2) :
    ∃ fwd inv, convertTransform env (.log (.fin base) true) = .ok fwd ∧
      convertTransform env (.log (.fin base) false) = .ok inv ∧
      ∀ pixels : List (Fin 3 → ℝ), ∃ w, processList A compat fwd (pixelValues pixels) 3 = .ok w ∧
        processList A compat inv w 3
          = .ok (pixelValues (pixels.map fun p i => max (p i) Spec.floor32)) := by
  have one : ∀ (style : String) (v : List (Flt ℝ)), processList A compat [ocioLog style] v 3
      = (do let r ← logProcess A [] ((newBase float16 float16 (.str "log") (.str "log")).setAttribute
          "style" (.str style)) v 3; .ok r.out) := by
    intro style v
    rw [processList_one A hA.exact compat 3 _ rfl]
    rfl
  have styled : ∀ style : String, StyledNode ((newBase (K := ℝ) float16 float16 (.str "log")
      (.str "log")).setAttribute "style" (.str style)) float16 float16 (.str style) :=
    fun style => ⟨rfl, rfl, rfl⟩
  have img : ∀ pixels : List (Fin 3 → ℝ), pixelValues pixels
      = Spec.image (pixels.map fun p => (p, ([] : List (Flt ℝ)))) := by
    intro pixels
    simp [pixelValues, Spec.image, List.flatMap, Function.comp_def]
  have fs : (Spec.fullScale (some float16) : ℝ) = 1 := by
    simp [Spec.fullScale, float16, Spec.bits]
  have key : ∀ s1 s2 : String, ((s1 = "log10" ∧ s2 = "antiLog10") ∨ (s1 = "log2" ∧ s2 = "antiLog2")) →
      ∀ pixels : List (Fin 3 → ℝ), ∃ w, processList A compat [ocioLog s1] (pixelValues pixels) 3 = .ok w ∧
        processList A compat [ocioLog s2] w 3
          = .ok (pixelValues (pixels.map fun p i => max (p i) Spec.floor32)) := by
    intro s1 s2 hs pixels
    obtain ⟨r, r', h1, h2, h3⟩ := C32_antilog_log A hA [] (by simp [Spec.GoodLetters])
      ((newBase float16 float16 (.str "log") (.str "log")).setAttribute "style" (.str s1))
      ((newBase float16 float16 (.str "log") (.str "log")).setAttribute "style" (.str s2))
      float16 float16 (by
        rcases hs with ⟨rfl, rfl⟩ | ⟨rfl, rfl⟩
        · exact .inl ⟨styled _, styled _⟩
        · exact .inr ⟨styled _, styled _⟩) 3 le_rfl (pixels.map fun p => (p, [])) (by simp)
    refine ⟨r.out, ?_, ?_⟩
    · rw [one, img, h1]
      rfl
    · rw [one, h2]
      show Except.ok r'.out = _
      rw [h3, img, fs]
      simp [Function.comp_def]
  rcases hb with rfl | rfl
  · refine ⟨[ocioLog "log10"], [ocioLog "antiLog10"], ?_, ?_, key _ _ (.inl ⟨rfl, rfl⟩)⟩ <;>
      simp [convertTransform, convertLog]
  · refine ⟨[ocioLog "log2"], [ocioLog "antiLog2"], ?_, ?_, key _ _ (.inr ⟨rfl, rfl⟩)⟩ <;>
      simp [convertTransform, convertLog]

/-- Multiplication by `k`, as OpenColorIO lists it. -/
def scaleTransform (k : ℚ) (forward : Bool) : Ocio ℚ :=
  .matrix (Spec.entries ![![k, 0, 0, 0], ![0, k, 0, 0], ![0, 0, k, 0], ![0, 0, 0, 1]])
    (Spec.fins (0 : Fin 4 → ℚ)) forward

/-- C85 is false: an inverse matrix is left out, and an inverse group is converted as a forward
one. -/
theorem C85_false (env : OcioEnv ℚ) :
    convertTransform env (scaleTransform 2 false) = .ok [] ∧
    ∃ ns, convertTransform env (.group true [scaleTransform 2 true]) = .ok ns ∧
      convertTransform env (.group false [scaleTransform 2 true]) = .ok ns ∧
      processList ratArith 0 ns (pixelValues [![1, 2, 3]]) 3 = .ok (pixelValues [![2, 4, 6]]) ∧
      processList ratArith 0 ns (pixelValues [![2, 4, 6]]) 3 = .ok (pixelValues [![4, 8, 12]]) :=
  ⟨rfl, _, rfl, rfl, by decide +kernel, by decide +kernel⟩

end CLF
