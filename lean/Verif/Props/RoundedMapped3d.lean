import Verif.Props.RoundedIndexMap
import Verif.Props.RoundedLut3d

set_option linter.unusedSectionVars false

/-! # Property C127: three-dimensional LUTs with index maps in IEEE arithmetic -/

namespace CLF

variable {K : Type} [Field K] [LinearOrder K] [IsStrictOrderedRing K] [FloorRing K]

/-- A LUT3D node with index maps. -/
structure MappedLut3 (b : Base K) (maps : List (List K × List K)) (st : AVal) (a : Arr K) : Prop where
  inDepth : (b.attrs.get? "inBitDepth").isSome
  outDepth : (b.attrs.get? "outBitDepth").isSome
  style : b.styleOf "interpolation" = st
  maps : ∃ dims : List ℕ, dims.length = maps.length ∧
    b.indexMaps = (dims.zip maps).map fun p => ⟨p.1, p.2.1.map .fin, p.2.2.map .fin⟩
  array : b.array = .ok a

/-- The node, for any rounding, in terms of what a lookup gives. -/
theorem mapped3R_node (R : Rounding K) (b : Base K) (maps : List (List K × List K)) (st : AVal) (a : Arr K)
    (h : MappedLut3 b maps st a) (N : ℕ → Flt K → Flt K)
    (hN : ∀ i < 3, ∀ d x, lutNormalizeR R b.indexMaps d (pyGet a.dims i) i x = .ok (N i x)) (F G : Flt K → Flt K → Flt K → Fin 3 → K)
    (hF : (st = .str "trilinear" ∧ ∀ r g bl rest,
        a.lookup3DTrilinearR R (r :: g :: bl :: rest) = .ok (Spec.fins (F r g bl))) ∨
      (st = .str "tetrahedral" ∧ ∀ r g bl rest,
        a.lookup3DTetrahedralR R (r :: g :: bl :: rest) = .ok (Spec.fins (F r g bl))))
    (hG : ∀ r g bl ch, R single (.fin (F r g bl ch)) = .fin (G r g bl ch))
    (stride : ℕ) (pixels : List (Spec.Pixel K)) (hs : 0 < stride)
    (hp : ∀ p ∈ pixels, p.toList.length = stride) :
    ∃ res, lut3dProcessR R b (pixels.map Spec.Pixel.toList).flatten stride = .ok res ∧
      res.out = (pixels.map fun p => Spec.fins (G (N 0 p.r)
        (N 1 p.g) (N 2 p.b)) ++ p.extra).flatten := by
  obtain ⟨v2, e2⟩ : ∃ v, b.attrE "outBitDepth" = .ok v := by
    obtain ⟨v, hv⟩ := Option.isSome_iff_exists.mp h.outDepth
    exact ⟨some v, by simp [Base.attrE, Dict.getE, hv]⟩
  obtain ⟨v1, e1⟩ : ∃ v, b.attrE "inBitDepth" = .ok v := by
    obtain ⟨v, hv⟩ := Option.isSome_iff_exists.mp h.inDepth
    exact ⟨some v, by simp [Base.attrE, Dict.getE, hv]⟩
  have hst : st = .str "trilinear" ∨ st = .str "tetrahedral" := hF.imp And.left And.left
  unfold lut3dProcessR
  simp only [e1, e2, h.array, py_ok_bind, h.style]
  let P : List (Flt K) → List (Flt K) := fun px => match px with
    | r :: g :: bl :: rest => Spec.fins (G (N 0 r)
        (N 1 g) (N 2 bl)) ++ rest
    | px => px
  have hP : (pixels.map fun p => Spec.fins (G (N 0 p.r)
        (N 1 p.g) (N 2 p.b)) ++ p.extra)
      = (pixels.map Spec.Pixel.toList).map P := by
    rw [List.map_map]; rfl
  rw [viewLoop_pixels stride hs _ P (pixels.map Spec.Pixel.toList)]
  · exact ⟨_, rfl, by rw [hP]⟩
  · intro p hp'
    obtain ⟨q, hq, rfl⟩ := List.mem_map.mp hp'
    exact hp q hq
  · intro p hp'
    obtain ⟨q, hq, rfl⟩ := List.mem_map.mp hp'
    have hlen : min 3 q.toList.length = 3 := by simp [Spec.Pixel.toList]
    rw [hlen, chanLoop_ok 3 _ (fun i x => N i x) _ (by
      simp [Spec.Pixel.toList])]
    · have hmap : (q.toList.mapIdx fun i x => if i < 3 then N i x else x)
          = N 0 q.r :: N 1 q.g ::
            N 2 q.b :: q.extra := by
        have hx : ∀ l : List (Flt K), (l.mapIdx fun i x =>
            if i + 1 + 1 + 1 < 3 then N (i + 1 + 1 + 1) x else x) = l := by
          intro l
          apply List.ext_getElem (by simp)
          intro i h1 h2
          have : ¬ i + 1 + 1 + 1 < 3 := by omega
          rw [List.getElem_mapIdx, if_neg this]
        simp only [Spec.Pixel.toList, List.mapIdx_cons, hx]
        simp
      have hassign : ∀ (r g bl : Flt K) (x y z : Flt K) rest,
          assign3R R (x :: y :: z :: rest) (Spec.fins (F r g bl)) = .ok (Spec.fins (G r g bl) ++ rest) := by
        intro r g bl x y z rest
        have e : ∀ u : Fin 3 → K, Spec.fins u = [.fin (u 0), .fin (u 1), .fin (u 2)] := by
          intro u
          simp [Spec.fins, List.ofFn_succ]
        rw [e, e]
        simp [assign3R, hG]
      rw [hmap]
      simp only [py_ok_bind]
      rcases hF with ⟨rfl, hF⟩ | ⟨rfl, hF⟩
      · simp only [if_true, hF, py_ok_bind, hassign]; rfl
      · have : (AVal.str "tetrahedral" = .str "trilinear") = False := by
          simp
        simp only [this, if_false, if_true, hF, py_ok_bind, hassign]; rfl
    · intro i hi hi3
      exact hN i hi3 v1 _
  · intro p hp'
    obtain ⟨q, hq, rfl⟩ := List.mem_map.mp hp'
    have := hp q hq
    simpa [P, Spec.Pixel.toList, Spec.fins] using this

/-- An index that a map gives exactly, at which a cube of `m + 1` entries per axis has entry `i`. -/
def Spec.Reaches (xs ys : List K) (m : ℕ) (x : K) (i : Fin (m + 1)) : Prop :=
  ∃ (k : ℕ) (hk : k < xs.length) (hk' : k < ys.length),
    (x = xs[k] ∨ k = 0 ∧ x ≤ xs[k] ∨ k = xs.length - 1 ∧ xs[k] ≤ x) ∧
    ((ys[k] = 0 ∧ i = 0) ∨ ((m : K) ≤ ys[k] ∧ i = Fin.last m) ∨ ∃ n ≤ 23, m = 2 ^ n ∧ ys[k] = (i : ℕ))

/-- Where an index is looked up. -/
theorem reach_pos {m : ℕ} (hm0 : 0 < m) (hm : m < 2 ^ 53) {dim : ℕ} {xs ys : List K} (hk : Spec.IndexKnots xs ys) {x : K} (hx : Spec.IsSingle x)
    {i : Fin (m + 1)} (h : Spec.Reaches xs ys m x i) :
    ∃ w p, mapStored ieee dim xs ys (.fin x) = .ok w ∧ ieee single (ieee double (w / .fin (((m + 1 : ℕ) : K) - 1))) = .fin p ∧
      posF m (Spec.unit (.fin p)) = ((i : ℕ) : K) := by
  have hm' : (0 : K) < m := Nat.cast_pos.mpr hm0
  obtain ⟨k, hkx, hky, h1, h2⟩ := h
  obtain ⟨z, hz, hzs, z0, z1, z2, _⟩ := C127_map dim hk hx
  have hzk : z = ys[k] := by
    rcases h1 with e | ⟨rfl, e⟩ | ⟨e1, e⟩
    · exact z2 k hkx e
    · exact z0 e
    · have e2 : ys.length - 1 = k := by have := hk.length; omega
      rw [z1 (by simp only [← e1]; exact e)]
      simp only [e2]
  have hz0 : 0 ≤ z := by
    rw [hzk]
    exact (hk.outputs _ (List.getElem_mem _)).2
  obtain ⟨p, hpe, hps, hp0, hpz, hone, hone', herr⟩ := index_pos hm0 hzs hz0
  refine ⟨.fin z, p, hz, hpe, ?_⟩
  rcases h2 with ⟨e, rfl⟩ | ⟨e, rfl⟩ | ⟨n, hn, hmn, e⟩
  · have hp : p = 0 := hpz (hzk.trans e)
    have e1 : Spec.unit (.fin p : Flt K) = 0 := by
      simp only [Spec.unit]
      rw [hp, max_self, min_eq_right zero_le_one]
    rw [e1, posF, zero_mul, Fmt.near_zero]
    simp
  · have hp := hone (by rw [hzk]; exact e)
    have e1 : Spec.unit (.fin p : Flt K) = 1 := by
      simp only [Spec.unit]
      rw [max_eq_right hp0, min_eq_left hp]
    rw [e1, posF, one_mul, double_nat m hm]
    simp
  · have hi : (i : ℕ) ≤ m := Nat.lt_succ_iff.mp i.2
    have hmK : (m : K) = 2 ^ n := by exact_mod_cast congrArg (Nat.cast (R := K)) hmn
    have h23 : 2 ^ n ≤ 2 ^ 23 := Nat.pow_le_pow_right (by norm_num) hn
    have hi24 : (i : ℕ) < 2 ^ 24 := by omega
    have e0 : ((m + 1 : ℕ) : K) - 1 = m := by push_cast; ring
    have eq : (z : K) / m = (i : ℕ) * 2 ^ (-n : ℤ) := by
      rw [hzk, e, hmK, zpow_neg, zpow_natCast, div_eq_mul_inv]
    have d1 : double.near (z / m) = z / m := by
      rw [eq]
      exact Fmt.near_short double _ _ (lt_trans hi24 (by decide)) (by
        have : (1 : ℤ) - double.bias - double.mant = -1074 := by decide
        omega)
    have d2 : single.near (z / m) = z / m := by
      rw [eq]
      exact Fmt.near_short single _ _ hi24 (by
        have : (1 : ℤ) - single.bias - single.mant = -149 := by decide
        omega)
    have hq0 : 0 ≤ z / m := div_nonneg hz0 hm'.le
    have hq1 : z / m ≤ 1 := by
      rw [div_le_one hm', hzk, e]
      exact_mod_cast hi
    have hpq : p = z / m := by
      rw [e0, Flt.fin_div hm'.ne', double_fin_big (by
        rw [abs_of_nonneg hq0]
        exact hq1.trans (one_le_pow₀ one_le_two)), d1, single_fin (by
        rw [abs_of_nonneg hq0]
        exact hq1.trans (one_le_pow₀ one_le_two)), d2] at hpe
      exact (Flt.fin.inj hpe).symm
    have e1 : Spec.unit (.fin p : Flt K) = p := by
      simp only [Spec.unit]
      rw [max_eq_right hp0, min_eq_right (by rw [hpq]; exact hq1)]
    rw [e1, posF, hpq, div_mul_cancel₀ _ hm'.ne', hzk, e, double_nat _ (lt_of_le_of_lt hi hm)]

/-- C127: a LUT3D with one index map, or with one for each channel, in IEEE arithmetic.  The colour of each
pixel becomes three finite numbers of `float32`, each of them between two entries of its channel, whatever the pixel;
at inputs of the maps whose outputs are the first or the last index, or any index if the cube has `2^n + 1` entries per axis,
it is the entry. -/
theorem C127_cube (b : Base K) (maps : List (List K × List K)) (st : AVal) (a : Arr K) (h : MappedLut3 b maps st a)
    (hpos : 0 < maps.length) (hc : maps.length = 1 ∨ 3 ≤ maps.length) (hmaps : ∀ p ∈ maps, Spec.IndexKnots p.1 p.2)
    (hst : st = .str "trilinear" ∨ st = .str "tetrahedral") {m : ℕ} (hm0 : 0 < m) (hm : m < 2 ^ 53)
    (V : Fin (m + 1) → Fin (m + 1) → Fin (m + 1) → Fin 3 → K) (hT : Table3D a V) (hV : ∀ i j k ch, Spec.IsSingle (V i j k ch))
    (stride : ℕ) (hs : 0 < stride) (pixels : List (Spec.Pixel K)) (hp : ∀ p ∈ pixels, p.toList.length = stride) :
    ∃ (r : Res K) (G : Flt K → Flt K → Flt K → Fin 3 → K),
      lut3dProcessR ieee b (pixels.map Spec.Pixel.toList).flatten stride = .ok r ∧
      r.out = (pixels.map fun p => Spec.fins (G p.r p.g p.b) ++ p.extra).flatten ∧
      (∀ x y z ch, Spec.IsSingle (G x y z ch) ∧ (∃ i j k, V i j k ch ≤ G x y z ch) ∧ ∃ i j k, G x y z ch ≤ V i j k ch) ∧
      ∀ x y z i j k, Spec.IsSingle x → Spec.IsSingle y → Spec.IsSingle z →
        Spec.Reaches (Spec.mapOf maps hpos 0).1 (Spec.mapOf maps hpos 0).2 m x i →
        Spec.Reaches (Spec.mapOf maps hpos 1).1 (Spec.mapOf maps hpos 1).2 m y j →
        Spec.Reaches (Spec.mapOf maps hpos 2).1 (Spec.mapOf maps hpos 2).2 m z k →
        G (.fin x) (.fin y) (.fin z) = V i j k := by
  obtain ⟨F, hF, hmem, hlat, _, _⟩ := cubeR_lookup hm a V hT hV st hst
  have hmin : ∀ ch, ∃ q : Fin (m + 1) × Fin (m + 1) × Fin (m + 1), ∀ i j k, V q.1 q.2.1 q.2.2 ch ≤ V i j k ch := fun ch => by
    obtain ⟨q, hq⟩ := Finite.exists_min fun q : Fin (m + 1) × Fin (m + 1) × Fin (m + 1) => V q.1 q.2.1 q.2.2 ch
    exact ⟨q, fun i j k => hq (i, j, k)⟩
  have hmax : ∀ ch, ∃ q : Fin (m + 1) × Fin (m + 1) × Fin (m + 1), ∀ i j k, V i j k ch ≤ V q.1 q.2.1 q.2.2 ch := fun ch => by
    obtain ⟨q, hq⟩ := Finite.exists_max fun q : Fin (m + 1) × Fin (m + 1) × Fin (m + 1) => V q.1 q.2.1 q.2.2 ch
    exact ⟨q, fun i j k => hq (i, j, k)⟩
  choose lo hlo using hmin
  choose hi hhi using hmax
  have hall := fun r g bl ch => hmem r g bl ch _ _ (hV _ _ _ ch) (hV _ _ _ ch) fun i j k => ⟨hlo ch i j k, hhi ch i j k⟩
  have hdims : ∀ i < 3, pyGet a.dims i = .ok (m + 1) := by
    obtain ⟨rest, hd⟩ := hT.dims
    intro i hi
    rw [hd]
    match i, hi with
    | 0, _ => rfl
    | 1, _ => rfl
    | 2, _ => rfl
  obtain ⟨dims, hd, hmapsE⟩ := h.maps
  have hmemM : ∀ i, Spec.mapOf maps hpos i ∈ maps := fun i => List.getElem_mem _
  have hN : ∀ i x, ∃ w, i < 3 → (∃ dim y, mapStored ieee dim (Spec.mapOf maps hpos i).1 (Spec.mapOf maps hpos i).2 x = .ok y ∧
      w = ieee single (ieee double (y / .fin (((m + 1 : ℕ) : K) - 1)))) ∧
      ∀ d, lutNormalizeR ieee b.indexMaps d (pyGet a.dims i) i x = .ok w := by
    intro i x
    by_cases hi : i < 3
    · obtain ⟨dim, hdim⟩ := mapped_normalize ieee maps hpos hc dims hd none m i hi x
      have hk := hmaps _ (hmemM i)
      obtain ⟨y, hy⟩ := mapStored_total ieee dim hk.nonempty hk.length x
      refine ⟨_, fun _ => ⟨⟨dim, y, hy, rfl⟩, fun d => ?_⟩⟩
      rw [hmapsE, hdims i hi]
      have := hdim y hy
      unfold lutNormalizeR at this ⊢
      have hlen : 0 < ((dims.zip maps).map fun p => (⟨p.1, p.2.1.map .fin, p.2.2.map .fin⟩ : IndexMap K)).length := by
        simp [hd]
        exact hpos
      simp only [hlen, if_true] at this ⊢
      exact this
    · exact ⟨.nan, fun hc => absurd hc hi⟩
  choose N hN using hN
  obtain ⟨res, hres, hout⟩ := mapped3R_node ieee b maps st a h N (fun i hi d x => (hN i x hi).2 d) F
    (fun r g bl ch => single.near (F r g bl ch)) hF (fun r g bl ch => (hall r g bl ch).1) stride pixels hs hp
  refine ⟨res, fun x y z ch => single.near (F (N 0 x) (N 1 y) (N 2 z) ch), hres, hout, fun x y z ch => ?_,
    fun x y z i j k hx hy hz hi hj hk => ?_⟩
  · obtain ⟨h1, h2, h3⟩ := hall (N 0 x) (N 1 y) (N 2 z) ch
    exact ⟨isSingle_near h1, ⟨_, _, _, h2⟩, ⟨_, _, _, h3⟩⟩
  · have hpos' : ∀ (c : ℕ) (hc : c < 3) (x : K) (i : Fin (m + 1)), Spec.IsSingle x →
        Spec.Reaches (Spec.mapOf maps hpos c).1 (Spec.mapOf maps hpos c).2 m x i →
        ∃ p, N c (.fin x) = .fin p ∧ posF m (Spec.unit (.fin p)) = ((i : ℕ) : K) := by
      intro c hc x i hx hi
      obtain ⟨⟨dim, w, hw, e⟩, _⟩ := hN c (.fin x) hc
      obtain ⟨w', p, hw', hp, hq⟩ := reach_pos (dim := dim) hm0 hm (hmaps _ (hmemM c)) hx hi
      have : w = w' := Except.ok.inj (hw.symm.trans hw')
      subst this
      exact ⟨p, e.trans hp, hq⟩
    obtain ⟨p1, e1, q1⟩ := hpos' 0 (by norm_num) x i hx hi
    obtain ⟨p2, e2, q2⟩ := hpos' 1 (by norm_num) y j hy hj
    obtain ⟨p3, e3, q3⟩ := hpos' 2 (by norm_num) z k hz hk
    funext ch
    show single.near _ = _
    rw [e1, e2, e3, hlat _ _ _ i j k q1 q2 q3, (hV i j k ch).near]

/-- The cube of `C124` with an index map. -/
def mappedCube (st : String) : Base ℚ where
  attrs := [("inBitDepth", .str "8i"), ("outBitDepth", .str "32f"), ("interpolation", .str st)]
  elements := [.indexMap ⟨3, [.fin 16, .fin 100, .fin 235], [.fin 0, .fin 1, .fin 2]⟩,
    .array { dims := [3, 3, 3, 3], values := Spec.cube fun i j k ch => .fin (rotatedCube i j k ch) }]

theorem mappedCube_knots : Spec.IndexKnots ([16, 100, 235] : List ℚ) [0, 1, 2] where
  nonempty := by decide
  length := rfl
  inputs := by unfold Spec.IsDouble; decide +kernel
  outputs := by unfold Spec.IsSingle; decide +kernel
  increasing := by decide +kernel
  monotone := by decide +kernel

/-- C127 on both interpolations: the entry of code (100, 5, 235) is found. -/
example (st : String) (hst : st = "trilinear" ∨ st = "tetrahedral") : ∃ (r : Res ℚ) (G : Flt ℚ → Flt ℚ → Flt ℚ → Fin 3 → ℚ),
    lut3dProcessR ieee (mappedCube st) [.fin 100, .fin 5, .fin 235, .fin 9, .fin 30, .fin 60, .nan, .fin 8] 4 = .ok r ∧
    r.out = [.fin 0, .fin 1, .fin (1 / 2), .fin 9] ++ (Spec.fins (G (.fin 30) (.fin 60) .nan) ++ [.fin 8]) := by
  have hx : Spec.IsSingle (100 : ℚ) := by unfold Spec.IsSingle; decide +kernel
  have hy : Spec.IsSingle (5 : ℚ) := by unfold Spec.IsSingle; decide +kernel
  have hz : Spec.IsSingle (235 : ℚ) := by unfold Spec.IsSingle; decide +kernel
  obtain ⟨r, G, h1, h2, _, h4⟩ := C127_cube (mappedCube st) [([16, 100, 235], [0, 1, 2])] (.str st) _
    ⟨rfl, rfl, rfl, ⟨[3], rfl, rfl⟩, rfl⟩ (by decide) (.inl rfl) (by simpa using mappedCube_knots)
    (by rcases hst with rfl | rfl <;> simp) (m := 2) (by norm_num) (by norm_num) rotatedCube
    ⟨⟨[3], rfl⟩, rfl⟩ rotatedCube_single 4 (by norm_num)
    [⟨.fin 100, .fin 5, .fin 235, [.fin 9]⟩, ⟨.fin 30, .fin 60, .nan, [.fin 8]⟩] (by simp [Spec.Pixel.toList])
  have h5 := h4 100 5 235 1 0 2 hx hy hz ⟨1, by decide, by decide, .inl rfl, .inr (.inr ⟨1, by norm_num, rfl, by decide +kernel⟩)⟩
    ⟨0, by decide, by decide, .inr (.inl ⟨rfl, by decide +kernel⟩), .inl ⟨rfl, rfl⟩⟩
    ⟨2, by decide, by decide, .inl rfl, .inr (.inl ⟨by decide +kernel, rfl⟩)⟩
  refine ⟨r, G, h1, ?_⟩
  rw [h2]
  simp only [List.map_cons, List.map_nil, List.flatten_cons, List.flatten_nil, List.append_nil, h5]
  have : Spec.fins (rotatedCube 1 0 2) = [.fin 0, .fin 1, .fin (1 / 2)] := by decide +kernel
  rw [this]
  rfl

end CLF
