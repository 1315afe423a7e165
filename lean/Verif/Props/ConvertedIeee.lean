import Verif.Props.StoredList

/-! # Property C135: converted LUT files, in IEEE arithmetic -/

set_option linter.unusedSectionVars false

namespace CLF

variable {K : Type} [Field K] [LinearOrder K] [IsStrictOrderedRing K] [FloorRing K]

/-- What `convertLUTtoCLF.py` writes, for nodes of the kinds of C134. -/
theorem converted_ieee (A : Arith K) (hA : ∀ x, A.f32 x = single.round x) (E : Evaluator K) (hE : E.rounding = ieee)
    (ht : ∀ b, E.table b = half ∨ E.table b = single ∨ E.table b = double) (compat : ℕ) (formats : List (LutClass K)) (files : Txt → Py Txt)
    (o : ToClfOptions) (path : Txt) (out : String) (hp : o.lut = some path) (ho : o.clf = some out) (ns : List (Node K)) (hne : ns ≠ [])
    (hr : registryRead formats files path ⟨o.inverse, .str "linear", o.useIndexMaps, o.useHalfDomain⟩ = .ok (some ns))
    (load : String → Py (Option (List (Node K)))) (hn : ∀ n ∈ ns, Spec.Storable compat load n ∧ Spec.IsWritten compat n)
    (ss : List (Spec.Stage K)) (h : List.Forall₂ Drawn ns ss) (hby : ∀ n ∈ ns, n.attr "bypass" = none) (B e : K)
    (hb : Spec.StoredBudget ss B 0 e) :
    ∃ f l', toClfMain compat formats files o = .ok (some f) ∧ readContents compat (readList A compat load false) f = .ok l' ∧
      ∀ pixels : List (Fin 3 → K), (∀ p ∈ pixels, ∀ i, Spec.IsSingle (p i) ∧ |p i| ≤ B) →
      ∃ g : (Fin 3 → K) → Fin 3 → K, processListR E compat l'.processes (Spec.rgb pixels) 3 = .ok (Spec.rgb (pixels.map g)) ∧
        ∀ p ∈ pixels, ∀ i, Spec.IsSingle (g p i) ∧ |g p i - Spec.evalChain ss p i| ≤ e := by
  obtain ⟨f, hf⟩ := writeFile_exists compat (convertedList ns) (by simp [convertedList]) fun n hn' => (hn n hn').2
  have hmain : toClfMain compat formats files o = .ok (some f) := by
    unfold toClfMain registryReadList
    rw [hp, ho]
    simp only [hr, Except.map, Option.map, py_ok_bind]
    rw [if_neg (by simpa [convertedList] using hne), hf]
    rfl
  rw [← writeFile_texts] at hf
  obtain ⟨l', h1, h2⟩ := C134_stored A hA E hE ht compat load (Spec.texts (convertedList ns))
    ⟨by simp [Spec.texts, convertedList], by simp [Spec.texts, convertedList], rfl, by simp [Spec.texts, convertedList], fun n hn' => (hn n hn').1⟩
    false f hf ss h hby B e hb
  exact ⟨f, l', hmain, h1, h2⟩

/-- The numbers of an image are bounded. -/
theorem bounded_pixels (pixels : List (Fin 3 → K)) : ∃ B : K, ∀ p ∈ pixels, ∀ i, |p i| ≤ B := by
  induction pixels with
  | nil => exact ⟨0, by simp⟩
  | cons p ps ih =>
    obtain ⟨B, hB⟩ := ih
    refine ⟨max B (∑ i, |p i|), fun q hq i => ?_⟩
    rcases List.mem_cons.mp hq with rfl | hq
    · exact (Finset.single_le_sum (f := fun i => |q i|) (fun _ _ => abs_nonneg _) (Finset.mem_univ i)).trans (le_max_right _ _)
    · exact (hB q hq i).trans (le_max_left _ _)

/-- C135: a one-dimensional SPI file over [0, 1], of any number of values, each at most `C` in size and `J` from the next, is converted by
`convertLUTtoCLF.py`, and the result read.  In IEEE arithmetic every `float32` number becomes what the polygon
through the values of the SPI file gives, up to the error that is stated. -/
theorem C135_spi1d (A : Arith K) (hA : ∀ x, A.f32 x = single.round x) (E : Evaluator K) (hE : E.rounding = ieee)
    (htab : ∀ b, E.table b = half ∨ E.table b = single ∨ E.table b = double) (compat compat' : ℕ) (fmt : Flt K → Txt)
    (cs : List (LutClass K)) (hp : cs.Perm (shippedFormats A compat' fmt)) (files : Txt → Py Txt) (path : Txt)
    (he : Spec.Extension path "spi1d".toList) (t : Txt) (ht : files path = .ok t) {m c n : ℕ}
    (hc : c = 0 ∨ c = 2) (V : Fin (m + 1) → Fin (c + 1) → K) (hm0 : 0 < m) (hm : m < 2 ^ 53)
    (hs : spi1dParse t = .ok ⟨n, c + 1, Spec.rowMajor fun i j => .fin (V i j), .fin 0, .fin 1⟩)
    (J C : K) (hJ : ∀ j, Spec.StepsWithin (fun k => V k j) J) (hC : ∀ k j, |V k j| ≤ C) (hC0 : C ≤ 2 ^ 120)
    (out : String) (im hdom : Bool) (load : String → Py (Option (List (Node K)))) :
    ∃ f l', toClfMain compat cs files ⟨some path, some out, false, im, hdom⟩ = .ok (some f) ∧
      readContents compat (readList A compat load false) f = .ok l' ∧
      ∀ pixels : List (Fin 3 → K), (∀ p ∈ pixels, ∀ i, Spec.IsSingle (p i)) →
      ∃ g : (Fin 3 → K) → Fin 3 → K, processListR E compat l'.processes (Spec.rgb pixels) 3 = .ok (Spec.rgb (pixels.map g)) ∧
        ∀ p ∈ pixels, ∀ i, Spec.IsSingle (g p i) ∧ |g p i - Spec.polyline (fun k => V k (Spec.column c i)) (p i)|
          ≤ ((J + 2 * Spec.storeError C) * m + (C + Spec.storeError C)) / 2 ^ 23 + 2 ^ (-150 : ℤ) + Spec.storeError C := by
  have hlen : (Spec.rowMajor fun i j => Flt.fin (V i j)).length = (m + 1) * (c + 1) := rowMajor_length _
  obtain ⟨b, hb, hb'⟩ : ∃ b, lut1dSetArray (newLut1d float16 float16 (.str "lut1d") (.str "lut1d")) (c + 1)
      (Spec.rowMajor fun i j => .fin (V i j)) = .ok b ∧ b =
      (newLut1d float16 float16 (.str "lut1d") (.str "lut1d")).addElement (.array
        { dims := [m + 1, c + 1], values := Spec.rowMajor fun i j => .fin (V i j) }) := by
    refine ⟨_, ?_, rfl⟩
    unfold lut1dSetArray pyDivNat
    rw [if_neg (by omega), hlen, Nat.mul_div_cancel _ (by omega)]
    rfl
  have hread : ∀ im hdom, readSpi1d t false (.str "linear") im hdom = .ok [.leaf .lut1d b] := by
    intro im hdom
    unfold readSpi1d spi1dForward
    simp only [hs, py_ok_bind, Bool.not_false, if_true, hb, py_pure]
    simp
  obtain ⟨⟨r1, -⟩, r3⟩ := lut1d_ready A compat load (c + 1) _ (by omega)
    (by rw [hlen]; exact dvd_mul_left _ _) b hb
  have hne : [Node.leaf .lut1d b] ≠ [] := by simp
  have hr : registryRead cs files path ⟨false, .str "linear", im, hdom⟩ = .ok (some [.leaf .lut1d b]) := by
    rw [(C52_read A compat' fmt cs hp path _ he files t ht _).1 rfl]
    simp only [hread, Except.map, found_some hne]
  have hd : Drawn (.leaf .lut1d b) (.curves 1 m fun ch k => V k (Spec.column c ch)) := by
    have hS : Spec.fullScale (K := K) (some float16) = 1 := by simp [Spec.fullScale, Spec.bits, float16]
    rw [← hS, hb']
    refine .lut1d (din := float16) (a := { dims := [m + 1, c + 1], values := Spec.rowMajor fun i j => .fin (V i j) })
      ⟨rfl, rfl, by simp [newLut1d, newBase, Base.setUnlessEmpty, Base.addElement, Base.setAttribute,
        Dict.set, Base.styleOf, Dict.get?], rfl, rfl, rfl⟩ ⟨⟨[], rfl⟩, rfl, hc⟩ ⟨rfl, rfl⟩ hm0 hm
  have main : ∀ B : K, _ := fun B => converted_ieee A hA E hE htab compat cs files ⟨some path, some out, false, im, hdom⟩ path out rfl rfl
    [.leaf .lut1d b] hne hr load (fun x hx => by rw [List.mem_singleton.mp hx]; exact ⟨r1, r3⟩) _ (.cons hd .nil)
    (fun x hx => by rw [List.mem_singleton.mp hx, hb']; rfl) B _
    (.cons (.curves (J := J) (C := C) (fun i => hJ _) (fun i k => hC k _) hC0 rfl rfl) .nil)
  obtain ⟨f, l', h1, h2, -⟩ := main 0
  refine ⟨f, l', h1, h2, fun pixels hp' => ?_⟩
  obtain ⟨B, hB⟩ := bounded_pixels pixels
  obtain ⟨f', l'', k1, k2, k3⟩ := main B
  rw [h1] at k1
  cases k1
  rw [h2] at k2
  cases k2
  obtain ⟨g, g1, g2⟩ := k3 pixels fun p hp'' i => ⟨hp' p hp'' i, hB p hp'' i⟩
  refine ⟨g, g1, fun p hp'' i => ⟨(g2 p hp'' i).1, ?_⟩⟩
  have := (g2 p hp'' i).2
  simp only [Spec.evalChain, Spec.Stage.eval, div_one, mul_zero, add_zero] at this
  exact this

/-- C135 for three-dimensional SPI files, in either direction: the reader does not invert them. -/
theorem C135_spi3d (A : Arith K) (hA : ∀ x, A.f32 x = single.round x) (E : Evaluator K) (hE : E.rounding = ieee)
    (htab : ∀ b, E.table b = half ∨ E.table b = single ∨ E.table b = double) (compat compat' : ℕ) (fmt : Flt K → Txt)
    (cs : List (LutClass K)) (hp : cs.Perm (shippedFormats A compat' fmt)) (files : Txt → Py Txt) (path : Txt)
    (he : Spec.Extension path "spi3d".toList) (t : Txt) (ht : files path = .ok t) {m : ℕ}
    (V : Fin (m + 1) → Fin (m + 1) → Fin (m + 1) → Fin 3 → K) (hm0 : 0 < m) (hm : m < 2 ^ 53)
    (hs : spi3dParse t = .ok ([m + 1, m + 1, m + 1], Spec.cube fun i j k ch => .fin (V i j k ch)))
    (J C : K) (hr : ∀ g b ch, Spec.StepsWithin (fun r => V r g b ch) J) (hg : ∀ r b ch, Spec.StepsWithin (fun g => V r g b ch) J)
    (hb : ∀ r g ch, Spec.StepsWithin (fun b => V r g b ch) J) (hC : ∀ r g b ch, |V r g b ch| ≤ C) (hC0 : C ≤ 2 ^ 120)
    (out : String) (inv im hdom : Bool) (load : String → Py (Option (List (Node K)))) :
    ∃ f l', toClfMain compat cs files ⟨some path, some out, inv, im, hdom⟩ = .ok (some f) ∧
      readContents compat (readList A compat load false) f = .ok l' ∧
      ∀ pixels : List (Fin 3 → K), (∀ p ∈ pixels, ∀ i, Spec.IsSingle (p i)) →
      ∃ g : (Fin 3 → K) → Fin 3 → K, processListR E compat l'.processes (Spec.rgb pixels) 3 = .ok (Spec.rgb (pixels.map g)) ∧
        ∀ p ∈ pixels, ∀ i, Spec.IsSingle (g p i) ∧
          |g p i - Spec.polyline (fun r => Spec.polyline (fun g => Spec.polyline (fun b => V r g b i) (p 2)) (p 1)) (p 0)|
          ≤ (3 * (J + 2 * Spec.storeError C) * m + (C + Spec.storeError C)) / 2 ^ 23 + 2 ^ (-150 : ℤ) + Spec.storeError C := by
  obtain ⟨n, hn⟩ : ∃ n : Node K, n = .leaf .lut3d (lut3dSetArray (newLut3d float16 float16 (.str "lut3d")
    (.str "lut3d") (.str "trilinear")) [m + 1, m + 1, m + 1] (Spec.cube fun i j k ch => .fin (V i j k ch))).1 := ⟨_, rfl⟩
  have hread : ∀ inv, readSpi3d t inv (.str "linear") = .ok [n] := by
    intro inv
    unfold readSpi3d
    simp only [hs, if_true, py_ok_bind, py_pure, hn]
  obtain ⟨⟨r1, -⟩, r3⟩ := lut3d_ready A compat load (m + 1) (m + 1) (m + 1) (Spec.cube fun i j k ch => .fin (V i j k ch))
    (by rw [cube_length]; exact dvd_mul_left _ _)
  rw [← hn] at r1 r3
  have hne : [n] ≠ [] := by simp
  have hrd : registryRead cs files path ⟨inv, .str "linear", im, hdom⟩ = .ok (some [n]) := by
    rw [(C52_read A compat' fmt cs hp path _ he files t ht _).2.1 rfl]
    simp only [hread, Except.map, found_some hne]
  have hd : Drawn n (.cube 1 m fun ch i j k => V i j k ch) := by
    have hS : Spec.fullScale (K := K) (some float16) = 1 := by simp [Spec.fullScale, Spec.bits, float16]
    rw [← hS, hn]
    refine .lut3d (din := float16) (a := { dims := [m + 1, m + 1, m + 1, 3], values := Spec.cube fun i j k ch => .fin (V i j k ch) })
      ⟨rfl, rfl, rfl, rfl, rfl⟩ ⟨⟨[3], rfl⟩, rfl⟩ ⟨rfl, rfl⟩ hm0 hm
  have main : ∀ B : K, _ := fun B => converted_ieee A hA E hE htab compat cs files ⟨some path, some out, inv, im, hdom⟩ path out rfl rfl
    [n] hne hrd load (fun x hx => by rw [List.mem_singleton.mp hx]; exact ⟨r1, r3⟩) _ (.cons hd .nil)
    (fun x hx => by rw [List.mem_singleton.mp hx, hn]; rfl) B _
    (.cons (.cube (J := J) (C := C) (fun i g b => hr g b i) (fun i r b => hg r b i) (fun i r g => hb r g i) (fun i r g b => hC r g b i)
      hC0 rfl rfl) .nil)
  obtain ⟨f, l', h1, h2, -⟩ := main 0
  refine ⟨f, l', h1, h2, fun pixels hp' => ?_⟩
  obtain ⟨B, hB⟩ := bounded_pixels pixels
  obtain ⟨f', l'', k1, k2, k3⟩ := main B
  rw [h1] at k1
  cases k1
  rw [h2] at k2
  cases k2
  obtain ⟨g, g1, g2⟩ := k3 pixels fun p hp'' i => ⟨hp' p hp'' i, hB p hp'' i⟩
  refine ⟨g, g1, fun p hp'' i => ⟨(g2 p hp'' i).1, ?_⟩⟩
  have := (g2 p hp'' i).2
  simp only [Spec.evalChain, Spec.Stage.eval, div_one, mul_zero, add_zero] at this
  exact this

/-- A curve of three values that have no exact decimal or binary form. -/
def plainSpi : Txt := "Version 1\nFrom 0 1\nLength 3\nComponents 1\n{\n 0\n 0.2\n 0.7\n}\n".toList

/-- It is converted, and what is written is right up to one part in a million. -/
example (lib : Arith ℚ) (load : String → Py (Option (List (Node ℚ)))) (fmt : Flt ℚ → Txt) :
    ∃ f l', toClfMain 0 (shippedFormats storedArith 0 fmt) (fun _ => .ok plainSpi) ⟨some "a.spi1d".toList, some "a.clf", false, false, false⟩
        = .ok (some f) ∧
      readContents 0 (readList storedArith 0 load false) f = .ok l' ∧
      ∀ pixels : List (Fin 3 → ℚ), (∀ p ∈ pixels, ∀ i, Spec.IsSingle (p i)) →
      ∃ g : (Fin 3 → ℚ) → Fin 3 → ℚ, processListR ⟨ieee, fun _ => single, lib⟩ 0 l'.processes (Spec.rgb pixels) 3
          = .ok (Spec.rgb (pixels.map g)) ∧
        ∀ p ∈ pixels, ∀ i, Spec.IsSingle (g p i) ∧ |g p i - Spec.polyline ![0, 1 / 5, 7 / 10] (p i)| ≤ 1 / 10 ^ 6 := by
  obtain ⟨f, l', h1, h2, h3⟩ := C135_spi1d storedArith (fun _ => rfl) ⟨ieee, fun _ => single, lib⟩ rfl (fun _ => .inr (.inl rfl)) 0 0 fmt
    _ (List.Perm.refl _) (fun _ => .ok plainSpi) _ ext_spi1d plainSpi rfl (m := 2) (c := 0) (n := 3) (.inl rfl)
    (fun i _ => ![0, 1 / 5, 7 / 10] i) (by norm_num) (by norm_num) (by decide +kernel) (1 / 2) 1
    (fun j k hk => by
      obtain rfl | rfl : k = 0 ∨ k = 1 := by omega
      · norm_num
      · norm_num [abs_le])
    (fun k j => by fin_cases k <;> norm_num [abs_le]) (by norm_num) "a.clf" false false load
  refine ⟨f, l', h1, h2, fun pixels hp => ?_⟩
  obtain ⟨g, g1, g2⟩ := h3 pixels hp
  exact ⟨g, g1, fun p hp' i => ⟨(g2 p hp' i).1, (g2 p hp' i).2.trans (by norm_num [Spec.storeError])⟩⟩

/-- A cube of two values along each axis meets the hypotheses of the other. -/
example : ∃ V : Fin 2 → Fin 2 → Fin 2 → Fin 3 → ℚ, V 1 0 0 0 = 7 / 10 ∧ (∀ r g b ch, |V r g b ch| ≤ 1) ∧
    spi3dParse ("SPILUT 1.0\n3 3\n2 2 2\n0 0 0 0 0 0\n0 0 1 0 0 0.7\n0 1 0 0 0.7 0\n0 1 1 0 0.7 0.7\n1 0 0 0.7 0 0\n" ++
      "1 0 1 0.7 0 0.7\n1 1 0 0.7 0.7 0\n1 1 1 0.7 0.7 0.7\n").toList
      = .ok ([2, 2, 2], Spec.cube fun i j k ch => .fin (V i j k ch)) :=
  ⟨fun i j k ch => 7 / 10 * ((![i, j, k] ch : ℕ) : ℚ), by norm_num, by decide +kernel, by decide +kernel⟩

end CLF
