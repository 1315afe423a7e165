import Verif.Lemmas.IndexCurve

/-!
# LUT nodes with index maps, as LUT nodes at the positions that the maps give
-/

set_option linter.unusedSectionVars false

namespace CLF

variable {K : Type} [Field K] [LinearOrder K] [IsStrictOrderedRing K] [FloorRing K]

/-- Positions of all channels. -/
theorem normalize_positions {m : ℕ} (hm0 : 0 < m) {maps : List (List K × List K)} (hpos : 0 < maps.length)
    (hc : maps.length = 1 ∨ 3 ≤ maps.length) (hmaps : ∀ p ∈ maps, Spec.IndexKnots p.1 p.2) (hM : ∀ p ∈ maps, ∀ y ∈ p.2, y ≤ (m : K))
    {im : List (IndexMap K)} (him : ∃ dims : List ℕ, dims.length = maps.length ∧
      im = (dims.zip maps).map fun p => ⟨p.1, p.2.1.map .fin, p.2.2.map .fin⟩) :
    ∃ N : ℕ → Flt K → Flt K, (∀ i < 3, ∀ d x, lutNormalizeR ieee im d (.ok (m + 1)) i x = .ok (N i x)) ∧
      ∀ i < 3, ∀ x, Spec.IsSingle x → ∃ p, N i (.fin x) = .fin p ∧ Spec.IsSingle p ∧
        |p - Spec.indexCurve (Spec.mapOf maps hpos i).1 (Spec.mapOf maps hpos i).2 x / m| ≤ 1 / 2 ^ 22 := by
  obtain ⟨dims, hd, rfl⟩ := him
  have hmem : ∀ i, Spec.mapOf maps hpos i ∈ maps := fun i => List.getElem_mem _
  have hN : ∀ i x, ∃ w, i < 3 → (∃ dim y, mapStored ieee dim (Spec.mapOf maps hpos i).1 (Spec.mapOf maps hpos i).2 x = .ok y ∧
      w = ieee single (ieee double (y / .fin (((m + 1 : ℕ) : K) - 1)))) ∧
      ∀ d, lutNormalizeR ieee ((dims.zip maps).map fun p => ⟨p.1, p.2.1.map .fin, p.2.2.map .fin⟩) d (.ok (m + 1)) i x = .ok w := by
    intro i x
    by_cases hi : i < 3
    · obtain ⟨dim, hdim⟩ := mapped_normalize ieee maps hpos hc dims hd none m i hi x
      have hk := hmaps _ (hmem i)
      obtain ⟨y, hy⟩ := mapStored_total ieee dim hk.nonempty hk.length x
      refine ⟨_, fun _ => ⟨⟨dim, y, hy, rfl⟩, fun d => ?_⟩⟩
      have := hdim y hy
      unfold lutNormalizeR at this ⊢
      have hlen : 0 < ((dims.zip maps).map fun p => (⟨p.1, p.2.1.map .fin, p.2.2.map .fin⟩ : IndexMap K)).length := by
        simp [hd]
        exact hpos
      simp only [hlen, if_true] at this ⊢
      exact this
    · exact ⟨.nan, fun hc => absurd hc hi⟩
  choose N hN using hN
  refine ⟨N, fun i hi d x => (hN i x hi).2 d, fun i hi x hx => ?_⟩
  obtain ⟨⟨dim, w, hw, e⟩, -⟩ := hN i (.fin x) hi
  obtain ⟨z, p, h1, h2, h3, -, -, h4⟩ := mapped_position hm0 dim (hmaps _ (hmem i)) (hM _ (hmem i)) hx
  rw [hw] at h1
  cases h1
  exact ⟨p, e.trans h2, h3, h4⟩

/-- A plain LUT with a given table and interpolation, over [0, 1]. -/
def plainBase (st : AVal) (a : Arr K) : Base K where
  attrs := [("inBitDepth", .str "32f"), ("outBitDepth", .str "32f"), ("interpolation", st)]
  elements := [.array a]

theorem plainBase_lut {st : AVal} {a : Arr K} (h : st ≠ .str "cubic") : PlainLut (plainBase st a) (.str "32f") a where
  inDepth := rfl
  outDepth := rfl
  linear := h
  noHalf := rfl
  noMaps := rfl
  array := rfl

theorem plainBase_lut3 (st : AVal) (a : Arr K) : PlainLut3 (plainBase st a) (.str "32f") st a where
  inDepth := rfl
  outDepth := rfl
  style := rfl
  noMaps := rfl
  array := rfl

theorem unit_float (x : Flt K) : toUnitR ieee x (some (.str "32f")) = x := by
  simp [toUnitR, depth]

theorem float_scale : (Spec.fullScale (some (.str "32f")) : K) = 1 := by simp [Spec.fullScale, Spec.bits]

/-- A LUT1D with index maps. -/
theorem mapped_near (E : Evaluator K) (hE : E.rounding = ieee) {b : Base K} {maps : List (List K × List K)} {a : Arr K} (h : MappedLut b maps a)
    (hpos : 0 < maps.length) (hc : maps.length = 1 ∨ 3 ≤ maps.length) (hmaps : ∀ p ∈ maps, Spec.IndexKnots p.1 p.2) {m c : ℕ}
    (hM : ∀ p ∈ maps, ∀ y ∈ p.2, y ≤ (m : K)) {V : Fin (m + 1) → Fin (c + 1) → K} (hT : Table1D a V) (hV : ∀ i j, Spec.IsSingle (V i j))
    (hm0 : 0 < m) (hm : m < 2 ^ 53) {J C : K} (hJ : ∀ i : Fin 3, Spec.StepsWithin (fun k => V k (Spec.column c i)) J)
    (hC : ∀ (i : Fin 3) k, |V k (Spec.column c i)| ≤ C) (D : K) :
    NodeNear E .lut1d b (fun p i => Spec.polyline (fun k => V k (Spec.column c i))
        (Spec.indexCurve (Spec.mapOf maps hpos i).1 (Spec.mapOf maps hpos i).2 (p i) / m)) D
      ((J * m + C) / 2 ^ 23 + 2 ^ (-150 : ℤ) + J * m * (1 / 2 ^ 22)) := by
  intro compat pixels hp
  obtain ⟨N, hN, hP⟩ := normalize_positions hm0 hpos hc hmaps hM h.maps
  have hex : ∀ (i : Fin 3) (x : K), ∃ y, Spec.IsSingle x → N i (.fin x) = .fin y ∧ Spec.IsSingle y ∧
      |y - Spec.indexCurve (Spec.mapOf maps hpos i).1 (Spec.mapOf maps hpos i).2 x / m| ≤ 1 / 2 ^ 22 := by
    intro i x
    by_cases hx : Spec.IsSingle x
    · obtain ⟨y, hy⟩ := hP i i.2 x hx
      exact ⟨y, fun _ => hy⟩
    · exact ⟨0, fun h => absurd h hx⟩
  choose P hP using hex
  have hF := fun i x => linearR_total hT ieee x i
  choose F hF using hF
  have h0 : pyGet a.dims 0 = .ok (m + 1) := by
    obtain ⟨rest, hd⟩ := hT.dims
    rw [hd]; rfl
  have hst : b.styleOf "interpolation" ≠ .str "cubic" := h.linear
  obtain ⟨r, h1, h2⟩ := mappedR_node ieee (E.table b) b maps a h N (m + 1) h0 (fun i hi d x => hN i hi d x) F hF 3 (by norm_num) (pixels.map Spec.fins)
    (by simp [Spec.fins])
  have hB : ∀ p ∈ pixels.map (fun p i => P i (p i)), Small (∑ q ∈ pixels.toFinset, ∑ i, |P i (q i)|) p := by
    intro q hq i
    obtain ⟨p, hp', rfl⟩ := List.mem_map.mp hq
    refine ⟨(hP i (p i) (hp p hp' i).1).2.1, ?_⟩
    have a1 := Finset.single_le_sum (s := Finset.univ) (f := fun i => |P i (p i)|) (fun _ _ => abs_nonneg _) (Finset.mem_univ i)
    have a2 := Finset.single_le_sum (s := pixels.toFinset) (f := fun q => ∑ i, |P i (q i)|)
      (fun _ _ => Finset.sum_nonneg fun _ _ => abs_nonneg _) (List.mem_toFinset.mpr hp')
    exact a1.trans a2
  obtain ⟨r', g, k1, k2, k3⟩ := runs_curves (t := E.table b) (plainBase_lut (st := .str "linear") (a := a) (by simp)) hT hV hm0 hm hJ hC _ hB
  obtain ⟨r'', l1, l2⟩ := lut1dR_node ieee (E.table b) _ _ a (plainBase_lut (st := .str "linear") (a := a) (by simp)) F hF 3 (by norm_num)
    ((pixels.map (fun p i => P i (p i))).map Spec.fins) (by simp [Spec.fins])
  have e1 : r' = r'' := Except.ok.inj (k1.symm.trans l1)
  have e2 : r.out = r''.out := by
    rw [h2, l2, List.map_map, List.map_map, List.map_map]
    congr 1
    refine List.map_congr_left fun p hp' => ?_
    have q : ∀ i : Fin 3, N i (.fin (p i)) = ieee single (toUnitR ieee (.fin (P i (p i))) (some (.str "32f"))) := fun i => by
      rw [unit_float, (hP i (p i) (hp p hp' i).1).1]
      exact ((hP i (p i) (hp p hp' i).1).2.1).symm
    have q0 := q 0
    have q1 := q 1
    have q2 := q 2
    simp only [Fin.val_zero, Fin.val_one, Fin.val_two] at q0 q1 q2
    simp [Spec.mapColour, Spec.fins, List.ofFn_succ, q0, q1, q2]
  refine ⟨r, fun p => g fun i => P i (p i), ?_, ?_, fun p hp' i => ?_⟩
  · simpa only [leafProcessR, hE, Spec.rgb] using h1
  · rw [e2, ← e1, k2, List.map_map]
    rfl
  · obtain ⟨s1, s2⟩ := k3 _ (List.mem_map_of_mem hp')
    refine ⟨(s1 i).1, ?_⟩
    have a1 := s2 i
    have a2 : Off (J * m / 1 * (1 / 2 ^ 22))
        (Spec.Stage.eval (.curves 1 m fun ch k => V k (Spec.column c ch)) fun i => P i (p i))
        (Spec.Stage.eval (.curves 1 m fun ch k => V k (Spec.column c ch)) fun i =>
          Spec.indexCurve (Spec.mapOf maps hpos i).1 (Spec.mapOf maps hpos i).2 (p i) / m) :=
      stage_lipschitz (.curves (B := 0) hJ hC) ⟨one_pos, hm0⟩ fun i => (hP i (p i) (hp p hp' i).1).2.2
    have a3 := a2 i
    rw [float_scale] at a1
    simp only [Spec.Stage.eval, div_one] at a1 a3 ⊢
    exact (abs_sub_le _ _ _).trans (add_le_add a1 a3)

/-- A trilinear LUT3D with index maps. -/
theorem mapped_cube_near (E : Evaluator K) (hE : E.rounding = ieee) {b : Base K} {maps : List (List K × List K)} {a : Arr K}
    (h : MappedLut3 b maps (.str "trilinear") a)
    (hpos : 0 < maps.length) (hc : maps.length = 1 ∨ 3 ≤ maps.length) (hmaps : ∀ p ∈ maps, Spec.IndexKnots p.1 p.2) {m : ℕ}
    (hM : ∀ p ∈ maps, ∀ y ∈ p.2, y ≤ (m : K)) {V : Fin (m + 1) → Fin (m + 1) → Fin (m + 1) → Fin 3 → K} (hT : Table3D a V)
    (hV : ∀ i j k ch, Spec.IsSingle (V i j k ch)) (hm0 : 0 < m) (hm : m < 2 ^ 53) {J C : K}
    (hr : ∀ i g b, Spec.StepsWithin (fun r => V r g b i) J) (hg : ∀ i r b, Spec.StepsWithin (fun g => V r g b i) J)
    (hb : ∀ i r g, Spec.StepsWithin (fun b => V r g b i) J) (hC : ∀ i r g b, |V r g b i| ≤ C) (D : K) :
    NodeNear E .lut3d b (fun p => Spec.Stage.eval (.cube 1 m fun ch i j k => V i j k ch) fun i =>
        Spec.indexCurve (Spec.mapOf maps hpos i).1 (Spec.mapOf maps hpos i).2 (p i) / m) D
      ((3 * J * m + C) / 2 ^ 23 + 2 ^ (-150 : ℤ) + 3 * J * m * (1 / 2 ^ 22)) := by
  intro compat pixels hp
  obtain ⟨N, hN, hP⟩ := normalize_positions hm0 hpos hc hmaps hM h.maps
  have hex : ∀ (i : Fin 3) (x : K), ∃ y, Spec.IsSingle x → N i (.fin x) = .fin y ∧ Spec.IsSingle y ∧
      |y - Spec.indexCurve (Spec.mapOf maps hpos i).1 (Spec.mapOf maps hpos i).2 x / m| ≤ 1 / 2 ^ 22 := by
    intro i x
    by_cases hx : Spec.IsSingle x
    · obtain ⟨y, hy⟩ := hP i i.2 x hx
      exact ⟨y, fun _ => hy⟩
    · exact ⟨0, fun h => absurd h hx⟩
  choose P hP using hex
  obtain ⟨F, hF, hmem, -, -, -⟩ := cubeR_lookup hm a V hT hV (.str "trilinear") (.inl rfl)
  have hmin : ∀ ch, ∃ q : Fin (m + 1) × Fin (m + 1) × Fin (m + 1), ∀ i j k, V q.1 q.2.1 q.2.2 ch ≤ V i j k ch := fun ch => by
    obtain ⟨q, hq⟩ := Finite.exists_min fun q : Fin (m + 1) × Fin (m + 1) × Fin (m + 1) => V q.1 q.2.1 q.2.2 ch
    exact ⟨q, fun i j k => hq (i, j, k)⟩
  have hmax : ∀ ch, ∃ q : Fin (m + 1) × Fin (m + 1) × Fin (m + 1), ∀ i j k, V i j k ch ≤ V q.1 q.2.1 q.2.2 ch := fun ch => by
    obtain ⟨q, hq⟩ := Finite.exists_max fun q : Fin (m + 1) × Fin (m + 1) × Fin (m + 1) => V q.1 q.2.1 q.2.2 ch
    exact ⟨q, fun i j k => hq (i, j, k)⟩
  choose lo hlo using hmin
  choose hi hhi using hmax
  have hall := fun r g bl ch => hmem r g bl ch _ _ (hV _ _ _ ch) (hV _ _ _ ch) fun i j k => ⟨hlo ch i j k, hhi ch i j k⟩
  have hdims : ∀ i < 3, pyGet a.dims i = .ok (m + 1) := by
    obtain ⟨rest, hd⟩ := hT.dims
    intro i hi
    rw [hd]
    match i, hi with
    | 0, _ => rfl
    | 1, _ => rfl
    | 2, _ => rfl
  let px : (Fin 3 → K) → Spec.Pixel K := fun p => ⟨.fin (p 0), .fin (p 1), .fin (p 2), []⟩
  have hpx : ∀ ps : List (Fin 3 → K), (ps.map px).map Spec.Pixel.toList = ps.map Spec.fins := fun ps => by
    rw [List.map_map]
    refine List.map_congr_left fun p _ => ?_
    simp [px, Spec.Pixel.toList, Spec.fins, List.ofFn_succ]
  obtain ⟨r, h1, h2⟩ := mapped3R_node ieee b maps _ a h N (fun i hi d x => by rw [hdims i hi]; exact hN i hi d x) F
    (fun r g bl ch => single.near (F r g bl ch)) hF (fun r g bl ch => (hall r g bl ch).1) 3 (pixels.map px) (by norm_num)
    (by simp [px, Spec.Pixel.toList])
  have hB : ∀ p ∈ pixels.map (fun p i => P i (p i)), Small (∑ q ∈ pixels.toFinset, ∑ i, |P i (q i)|) p := by
    intro q hq i
    obtain ⟨p, hp', rfl⟩ := List.mem_map.mp hq
    refine ⟨(hP i (p i) (hp p hp' i).1).2.1, ?_⟩
    have a1 := Finset.single_le_sum (s := Finset.univ) (f := fun i => |P i (p i)|) (fun _ _ => abs_nonneg _) (Finset.mem_univ i)
    have a2 := Finset.single_le_sum (s := pixels.toFinset) (f := fun q => ∑ i, |P i (q i)|)
      (fun _ _ => Finset.sum_nonneg fun _ _ => abs_nonneg _) (List.mem_toFinset.mpr hp')
    exact a1.trans a2
  obtain ⟨r', g, k1, k2, k3⟩ := runs_cube (plainBase_lut3 (.str "trilinear") a) hT hV hm0 hm hr hg hb hC _ hB
  obtain ⟨r'', l1, l2⟩ := lut3dR_node ieee _ _ _ a (plainBase_lut3 (.str "trilinear") a) F (fun r g bl ch => single.near (F r g bl ch)) hF
    (fun r g bl ch => (hall r g bl ch).1) 3 ((pixels.map fun p i => P i (p i)).map px) (by norm_num) (by simp [px, Spec.Pixel.toList])
  rw [hpx] at h1 l1
  have e1 : r' = r'' := Except.ok.inj (k1.symm.trans l1)
  have e2 : r.out = r''.out := by
    rw [h2, l2, List.map_map, List.map_map, List.map_map]
    congr 1
    refine List.map_congr_left fun p hp' => ?_
    have q : ∀ i : Fin 3, N i (.fin (p i)) = ieee single (toUnitR ieee (.fin (P i (p i))) (some (.str "32f"))) := fun i => by
      rw [unit_float, (hP i (p i) (hp p hp' i).1).1]
      exact ((hP i (p i) (hp p hp' i).1).2.1).symm
    have q0 := q 0
    have q1 := q 1
    have q2 := q 2
    simp only [Fin.val_zero, Fin.val_one, Fin.val_two] at q0 q1 q2
    simp only [Function.comp, px, q0, q1, q2]
  refine ⟨r, fun p => g fun i => P i (p i), ?_, ?_, fun p hp' i => ?_⟩
  · simpa only [leafProcessR, hE, Spec.rgb] using h1
  · rw [e2, ← e1, k2, List.map_map]
    rfl
  · obtain ⟨s1, s2⟩ := k3 _ (List.mem_map_of_mem hp')
    refine ⟨(s1 i).1, ?_⟩
    have a1 := s2 i
    have a2 : Off (3 * J * m / 1 * (1 / 2 ^ 22))
        (Spec.Stage.eval (.cube 1 m fun ch i j k => V i j k ch) fun i => P i (p i))
        (Spec.Stage.eval (.cube 1 m fun ch i j k => V i j k ch) fun i =>
          Spec.indexCurve (Spec.mapOf maps hpos i).1 (Spec.mapOf maps hpos i).2 (p i) / m) :=
      stage_lipschitz (.cube (B := 0) hr hg hb hC) ⟨one_pos, hm0⟩ fun i => (hP i (p i) (hp p hp' i).1).2.2
    have a3 := a2 i
    rw [float_scale] at a1
    rw [div_one] at a3
    exact (abs_sub_le _ _ _).trans (add_le_add a1 a3)

/-- A tetrahedral LUT3D with index maps. -/
theorem mapped_tetra_near (E : Evaluator K) (hE : E.rounding = ieee) {b : Base K} {maps : List (List K × List K)} {a : Arr K}
    (h : MappedLut3 b maps (.str "tetrahedral") a)
    (hpos : 0 < maps.length) (hc : maps.length = 1 ∨ 3 ≤ maps.length) (hmaps : ∀ p ∈ maps, Spec.IndexKnots p.1 p.2) {m : ℕ}
    (hM : ∀ p ∈ maps, ∀ y ∈ p.2, y ≤ (m : K)) {V : Fin (m + 1) → Fin (m + 1) → Fin (m + 1) → Fin 3 → K} (hT : Table3D a V)
    (hV : ∀ i j k ch, Spec.IsSingle (V i j k ch)) (hm0 : 0 < m) (hm : m < 2 ^ 53) {J C : K}
    (hr : ∀ i g b, Spec.StepsWithin (fun r => V r g b i) J) (hg : ∀ i r b, Spec.StepsWithin (fun g => V r g b i) J)
    (hb : ∀ i r g, Spec.StepsWithin (fun b => V r g b i) J) (hC : ∀ i r g b, |V r g b i| ≤ C) (D : K) :
    NodeNear E .lut3d b (fun p => Spec.Stage.eval (.tetra 1 m fun ch i j k => V i j k ch) fun i =>
        Spec.indexCurve (Spec.mapOf maps hpos i).1 (Spec.mapOf maps hpos i).2 (p i) / m) D
      ((3 * J * m + C) / 2 ^ 23 + 2 ^ (-150 : ℤ) + 3 * J * m * (1 / 2 ^ 22)) := by
  intro compat pixels hp
  obtain ⟨N, hN, hP⟩ := normalize_positions hm0 hpos hc hmaps hM h.maps
  have hex : ∀ (i : Fin 3) (x : K), ∃ y, Spec.IsSingle x → N i (.fin x) = .fin y ∧ Spec.IsSingle y ∧
      |y - Spec.indexCurve (Spec.mapOf maps hpos i).1 (Spec.mapOf maps hpos i).2 x / m| ≤ 1 / 2 ^ 22 := by
    intro i x
    by_cases hx : Spec.IsSingle x
    · obtain ⟨y, hy⟩ := hP i i.2 x hx
      exact ⟨y, fun _ => hy⟩
    · exact ⟨0, fun h => absurd h hx⟩
  choose P hP using hex
  obtain ⟨F, hF, hmem, -, -, -⟩ := cubeR_lookup hm a V hT hV (.str "tetrahedral") (.inr rfl)
  have hmin : ∀ ch, ∃ q : Fin (m + 1) × Fin (m + 1) × Fin (m + 1), ∀ i j k, V q.1 q.2.1 q.2.2 ch ≤ V i j k ch := fun ch => by
    obtain ⟨q, hq⟩ := Finite.exists_min fun q : Fin (m + 1) × Fin (m + 1) × Fin (m + 1) => V q.1 q.2.1 q.2.2 ch
    exact ⟨q, fun i j k => hq (i, j, k)⟩
  have hmax : ∀ ch, ∃ q : Fin (m + 1) × Fin (m + 1) × Fin (m + 1), ∀ i j k, V i j k ch ≤ V q.1 q.2.1 q.2.2 ch := fun ch => by
    obtain ⟨q, hq⟩ := Finite.exists_max fun q : Fin (m + 1) × Fin (m + 1) × Fin (m + 1) => V q.1 q.2.1 q.2.2 ch
    exact ⟨q, fun i j k => hq (i, j, k)⟩
  choose lo hlo using hmin
  choose hi hhi using hmax
  have hall := fun r g bl ch => hmem r g bl ch _ _ (hV _ _ _ ch) (hV _ _ _ ch) fun i j k => ⟨hlo ch i j k, hhi ch i j k⟩
  have hdims : ∀ i < 3, pyGet a.dims i = .ok (m + 1) := by
    obtain ⟨rest, hd⟩ := hT.dims
    intro i hi
    rw [hd]
    match i, hi with
    | 0, _ => rfl
    | 1, _ => rfl
    | 2, _ => rfl
  let px : (Fin 3 → K) → Spec.Pixel K := fun p => ⟨.fin (p 0), .fin (p 1), .fin (p 2), []⟩
  have hpx : ∀ ps : List (Fin 3 → K), (ps.map px).map Spec.Pixel.toList = ps.map Spec.fins := fun ps => by
    rw [List.map_map]
    refine List.map_congr_left fun p _ => ?_
    simp [px, Spec.Pixel.toList, Spec.fins, List.ofFn_succ]
  obtain ⟨r, h1, h2⟩ := mapped3R_node ieee b maps _ a h N (fun i hi d x => by rw [hdims i hi]; exact hN i hi d x) F
    (fun r g bl ch => single.near (F r g bl ch)) hF (fun r g bl ch => (hall r g bl ch).1) 3 (pixels.map px) (by norm_num)
    (by simp [px, Spec.Pixel.toList])
  have hB : ∀ p ∈ pixels.map (fun p i => P i (p i)), Small (∑ q ∈ pixels.toFinset, ∑ i, |P i (q i)|) p := by
    intro q hq i
    obtain ⟨p, hp', rfl⟩ := List.mem_map.mp hq
    refine ⟨(hP i (p i) (hp p hp' i).1).2.1, ?_⟩
    have a1 := Finset.single_le_sum (s := Finset.univ) (f := fun i => |P i (p i)|) (fun _ _ => abs_nonneg _) (Finset.mem_univ i)
    have a2 := Finset.single_le_sum (s := pixels.toFinset) (f := fun q => ∑ i, |P i (q i)|)
      (fun _ _ => Finset.sum_nonneg fun _ _ => abs_nonneg _) (List.mem_toFinset.mpr hp')
    exact a1.trans a2
  obtain ⟨r', g, k1, k2, k3⟩ := runs_tetra (plainBase_lut3 (.str "tetrahedral") a) hT hV hm0 hm hr hg hb hC _ hB
  obtain ⟨r'', l1, l2⟩ := lut3dR_node ieee _ _ _ a (plainBase_lut3 (.str "tetrahedral") a) F (fun r g bl ch => single.near (F r g bl ch)) hF
    (fun r g bl ch => (hall r g bl ch).1) 3 ((pixels.map fun p i => P i (p i)).map px) (by norm_num) (by simp [px, Spec.Pixel.toList])
  rw [hpx] at h1 l1
  have e1 : r' = r'' := Except.ok.inj (k1.symm.trans l1)
  have e2 : r.out = r''.out := by
    rw [h2, l2, List.map_map, List.map_map, List.map_map]
    congr 1
    refine List.map_congr_left fun p hp' => ?_
    have q : ∀ i : Fin 3, N i (.fin (p i)) = ieee single (toUnitR ieee (.fin (P i (p i))) (some (.str "32f"))) := fun i => by
      rw [unit_float, (hP i (p i) (hp p hp' i).1).1]
      exact ((hP i (p i) (hp p hp' i).1).2.1).symm
    have q0 := q 0
    have q1 := q 1
    have q2 := q 2
    simp only [Fin.val_zero, Fin.val_one, Fin.val_two] at q0 q1 q2
    simp only [Function.comp, px, q0, q1, q2]
  refine ⟨r, fun p => g fun i => P i (p i), ?_, ?_, fun p hp' i => ?_⟩
  · simpa only [leafProcessR, hE, Spec.rgb] using h1
  · rw [e2, ← e1, k2, List.map_map]
    rfl
  · obtain ⟨s1, s2⟩ := k3 _ (List.mem_map_of_mem hp')
    refine ⟨(s1 i).1, ?_⟩
    have a1 := s2 i
    have a2 : Off (3 * J * m / 1 * (1 / 2 ^ 22))
        (Spec.Stage.eval (.tetra 1 m fun ch i j k => V i j k ch) fun i => P i (p i))
        (Spec.Stage.eval (.tetra 1 m fun ch i j k => V i j k ch) fun i =>
          Spec.indexCurve (Spec.mapOf maps hpos i).1 (Spec.mapOf maps hpos i).2 (p i) / m) :=
      stage_lipschitz (.tetra (B := 0) hr hg hb hC) ⟨one_pos, hm0⟩ fun i => (hP i (p i) (hp p hp' i).1).2.2
    have a3 := a2 i
    rw [float_scale] at a1
    rw [div_one] at a3
    exact (abs_sub_le _ _ _).trans (add_le_add a1 a3)

end CLF
