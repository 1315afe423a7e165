import Verif.Lemmas.Lut3d
import Verif.Props.Lut1d

/-! # Properties C21–C25, C69, C74: three-dimensional LUTs -/

set_option linter.unusedSectionVars false

namespace CLF

variable {K : Type} [Field K] [LinearOrder K] [IsStrictOrderedRing K] [FloorRing K]

theorem unit_lattice {m : ℕ} (hm : 0 < m) (i : Fin (m + 1)) :
    Spec.unit (.fin (((i : ℕ) : K) / m)) * m = ((i : ℕ) : K) := by
  have hm' : (0 : K) < m := Nat.cast_pos.mpr hm
  have hi : ((i : ℕ) : K) ≤ m := by exact_mod_cast Nat.lt_succ_iff.mp i.2
  have h0 : 0 ≤ ((i : ℕ) : K) / m := by positivity
  have h1 : ((i : ℕ) : K) / m ≤ 1 := (div_le_one hm').mpr hi
  simp only [Spec.unit]
  rw [max_eq_right h0, min_eq_right h1, div_mul_cancel₀ _ hm'.ne']

theorem axLo_nat (m : ℕ) (i : Fin (m + 1)) : axLo m (((i : ℕ) : K)) = i := by
  unfold axLo
  rw [Int.floor_natCast, clampRow_of (Nat.lt_succ_iff.mp i.2)]

/-- C21: at a lattice point both interpolations return the stored colour. -/
theorem C21_lattice {m : ℕ} (hm : 0 < m) (a : Arr K)
    (V : Fin (m + 1) → Fin (m + 1) → Fin (m + 1) → Fin 3 → K) (h : Table3D a V)
    (i j k : Fin (m + 1)) (extra : List (Flt K)) :
    a.lookup3DTrilinear (.fin ((i : ℕ) / m) :: .fin ((j : ℕ) / m) :: .fin ((k : ℕ) / m) :: extra)
      = .ok (Spec.fins (V i j k)) ∧
    a.lookup3DTetrahedral (.fin ((i : ℕ) / m) :: .fin ((j : ℕ) / m) :: .fin ((k : ℕ) / m) :: extra)
      = .ok (Spec.fins (V i j k)) := by
  constructor
  · rw [trilinear_table h]
    simp only [unit_lattice hm, axL_nat]
  · rw [tetrahedral_table h _ _ _ _ _ _ _ (unit_lattice hm i) (unit_lattice hm j) (unit_lattice hm k)]
    simp only [Int.fract_natCast]
    refine congrArg (fun z => Except.ok (Spec.fins z)) (funext fun ch => ?_)
    have e : ∀ s : Fin 3, ![(0 : K), 0, 0] s = 0 := by intro s; fin_cases s <;> rfl
    simp only [Spec.tetra, e, sub_zero, one_mul, zero_mul, add_zero, cellCorner, axLo_nat,
      Bool.false_eq_true, if_false]

/-- C22: whatever the position (also outside [0, 1], infinite or NaN), each channel of
the result lies between any bounds satisfied by the lattice colours around it. -/
theorem C22_bounded {m : ℕ} (a : Arr K)
    (V : Fin (m + 1) → Fin (m + 1) → Fin (m + 1) → Fin 3 → K) (h : Table3D a V)
    (r g b : Flt K) (extra : List (Flt K)) :
    ∃ T S : Fin 3 → K, a.lookup3DTrilinear (r :: g :: b :: extra) = .ok (Spec.fins T) ∧
      a.lookup3DTetrahedral (r :: g :: b :: extra) = .ok (Spec.fins S) ∧
      ∀ (ch : Fin 3) (lo hi : K), (∀ i j k, Spec.near m (Spec.unit r) i →
          Spec.near m (Spec.unit g) j → Spec.near m (Spec.unit b) k →
          lo ≤ V i j k ch ∧ V i j k ch ≤ hi) →
        (lo ≤ T ch ∧ T ch ≤ hi) ∧ (lo ≤ S ch ∧ S ch ≤ hi) := by
  refine ⟨_, _, trilinear_table h r g b extra,
    tetrahedral_table h r g b extra _ _ _ rfl rfl rfl, fun ch lo hi hV => ⟨?_, ?_⟩⟩
  · apply axL_mem m _ (unit_mem r).1 (unit_mem r).2
    intro i hi'
    apply axL_mem m _ (unit_mem g).1 (unit_mem g).2
    intro j hj
    apply axL_mem m _ (unit_mem b).1 (unit_mem b).2
    intro k hk
    exact hV i j k hi' hj hk
  · obtain ⟨s1, s2, s3⟩ := tetraOrder_sorted (Int.fract (Spec.unit r * (m : K)))
      (Int.fract (Spec.unit g * (m : K))) (Int.fract (Spec.unit b * (m : K)))
    refine tetra_mem _ _ _ s3 ?_ ?_ s1 s2 lo hi ?_
    · intro a; fin_cases a <;> exact Int.fract_nonneg _
    · intro a; fin_cases a <;> exact (Int.fract_lt_one _).le
    · intro e he
      have hr := ax_near m (Spec.unit r) (unit_mem r).1 (unit_mem r).2
      have hg := ax_near m (Spec.unit g) (unit_mem g).1 (unit_mem g).2
      have hb := ax_near m (Spec.unit b) (unit_mem b).1 (unit_mem b).2
      have h0 := he 0
      have h1 := he 1
      have h2 := he 2
      simp only [Matrix.cons_val_zero, Matrix.cons_val_one, Matrix.cons_val] at h0 h1 h2
      apply hV
      · split_ifs with hc
        · exact hr.2 (h0 hc)
        · exact hr.1
      · split_ifs with hc
        · exact hg.2 (h1 hc)
        · exact hg.1
      · split_ifs with hc
        · exact hb.2 (h2 hc)
        · exact hb.1

/-- `b` is a LUT3D node without index maps, holding the array `a`, reading depth
`din`, with interpolation `st`. -/
structure PlainLut3 (b : Base K) (din st : AVal) (a : Arr K) : Prop where
  inDepth : b.attrs.get? "inBitDepth" = some din
  outDepth : (b.attrs.get? "outBitDepth").isSome
  style : b.styleOf "interpolation" = st
  noMaps : b.indexMaps = []
  array : b.array = .ok a

/-- C22: the node looks the colour of each pixel up, after scaling by the input
depth; other channels are returned as they are.  `F` is any description of the
lookup that the node's interpolation style selects. -/
theorem C22_node (A : Arith K) (hA : A.Exact) (b : Base K) (din st : AVal) (a : Arr K)
    (h : PlainLut3 b din st a) (F : Flt K → Flt K → Flt K → Fin 3 → K)
    (hF : (st = .str "trilinear" ∧ ∀ r g bl rest,
        a.lookup3DTrilinear (r :: g :: bl :: rest) = .ok (Spec.fins (F r g bl))) ∨
      (st = .str "tetrahedral" ∧ ∀ r g bl rest,
        a.lookup3DTetrahedral (r :: g :: bl :: rest) = .ok (Spec.fins (F r g bl))))
    (stride : ℕ) (pixels : List (Spec.Pixel K)) (hs : 0 < stride)
    (hp : ∀ p ∈ pixels, p.toList.length = stride) :
    ∃ res, lut3dProcess A b (pixels.map Spec.Pixel.toList).flatten stride = .ok res ∧
      res.out = (pixels.map fun p => Spec.fins (F (Spec.convert (some din) none p.r)
        (Spec.convert (some din) none p.g) (Spec.convert (some din) none p.b)) ++ p.extra).flatten := by
  obtain ⟨v2, e2⟩ : ∃ v, b.attrE "outBitDepth" = .ok v := by
    obtain ⟨v, hv⟩ := Option.isSome_iff_exists.mp h.outDepth
    exact ⟨some v, by simp [Base.attrE, Dict.getE, hv]⟩
  have e1 : b.attrE "inBitDepth" = .ok (some din) := by
    simp [Base.attrE, Dict.getE, h.inDepth]
  have hconv : ∀ x : Flt K, bitDepthToNormalized x (some din) = Spec.convert (some din) none x := by
    intro x
    cases x <;> simp [Spec.convert, bitDepthSize_eq_fullScale, Spec.fullScale, Spec.bits]
  have hst : st = .str "trilinear" ∨ st = .str "tetrahedral" := hF.imp And.left And.left
  unfold lut3dProcess
  simp only [e1, e2, h.array, py_ok_bind, h.style, h.noMaps]
  let G : List (Flt K) → List (Flt K) := fun px => match px with
    | r :: g :: bl :: rest => Spec.fins (F (Spec.convert (some din) none r)
        (Spec.convert (some din) none g) (Spec.convert (some din) none bl)) ++ rest
    | px => px
  have hG : (pixels.map fun p => Spec.fins (F (Spec.convert (some din) none p.r)
        (Spec.convert (some din) none p.g) (Spec.convert (some din) none p.b)) ++ p.extra)
      = (pixels.map Spec.Pixel.toList).map G := by
    rw [List.map_map]; rfl
  rw [viewLoop_pixels stride hs _ G (pixels.map Spec.Pixel.toList)]
  · exact ⟨_, rfl, by rw [hG]⟩
  · intro p hp'
    obtain ⟨q, hq, rfl⟩ := List.mem_map.mp hp'
    exact hp q hq
  · intro p hp'
    obtain ⟨q, hq, rfl⟩ := List.mem_map.mp hp'
    have hlen : min 3 q.toList.length = 3 := by simp [Spec.Pixel.toList]
    rw [hlen, chanLoop_ok 3 _ (fun _ x => Spec.convert (some din) none x) _ (by
      simp [Spec.Pixel.toList])]
    · have hmap : (q.toList.mapIdx fun i x => if i < 3 then Spec.convert (some din) none x else x)
          = Spec.convert (some din) none q.r :: Spec.convert (some din) none q.g ::
            Spec.convert (some din) none q.b :: q.extra := by
        have hx : ∀ l : List (Flt K), (l.mapIdx fun i x =>
            if i + 1 + 1 + 1 < 3 then Spec.convert (some din) none x else x) = l := by
          intro l
          apply List.ext_getElem (by simp)
          intro i h1 h2
          have : ¬ i + 1 + 1 + 1 < 3 := by omega
          rw [List.getElem_mapIdx, if_neg this]
        simp only [Spec.Pixel.toList, List.mapIdx_cons, hx]
        simp
      have hassign : ∀ (u : Fin 3 → K) (x y z : Flt K) rest,
          assign3 A (x :: y :: z :: rest) (Spec.fins u) = .ok (Spec.fins u ++ rest) := by
        intro u x y z rest
        have : Spec.fins u = [.fin (u 0), .fin (u 1), .fin (u 2)] := by
          simp [Spec.fins, List.ofFn_succ]
        rw [this]
        simp [assign3, hA _]
      rw [hmap]
      simp only [py_ok_bind]
      rcases hF with ⟨rfl, hF⟩ | ⟨rfl, hF⟩
      · simp only [if_true, hF, py_ok_bind, hassign]; rfl
      · have : (AVal.str "tetrahedral" = .str "trilinear") = False := by
          simp
        simp only [this, if_false, if_true, hF, py_ok_bind, hassign]; rfl
    · intro i hi _
      simp only [lutNormalize, List.length_nil, Nat.not_lt_zero, if_false, py_pure, hA _, hconv]
  · intro p hp'
    obtain ⟨q, hq, rfl⟩ := List.mem_map.mp hp'
    have := hp q hq
    simpa [G, Spec.Pixel.toList, Spec.fins] using this

/-! ### Affine functions -/

/-- C23: a table holding an affine function of the lattice position is read as that
function of the (confined) position, by both interpolations. -/
theorem C23_affine {m : ℕ} (hm : 0 < m) (a : Arr K) (M : Fin 3 → Fin 3 → K) (t : Fin 3 → K)
    (h : Table3D (m := m) a fun i j k ch => M ch 0 * ((i : ℕ) / m) + M ch 1 * ((j : ℕ) / m)
      + M ch 2 * ((k : ℕ) / m) + t ch)
    (r g b : Flt K) (extra : List (Flt K)) :
    a.lookup3DTrilinear (r :: g :: b :: extra)
      = .ok (Spec.fins fun ch => M ch 0 * Spec.unit r + M ch 1 * Spec.unit g
          + M ch 2 * Spec.unit b + t ch) ∧
    a.lookup3DTetrahedral (r :: g :: b :: extra)
      = .ok (Spec.fins fun ch => M ch 0 * Spec.unit r + M ch 1 * Spec.unit g
          + M ch 2 * Spec.unit b + t ch) := by
  have hm' : (0 : K) < m := Nat.cast_pos.mpr hm
  have hin : ∀ v : Flt K, 0 ≤ Spec.unit v * (m : K) ∧ Spec.unit v * (m : K) ≤ m := fun v =>
    ⟨mul_nonneg (unit_mem v).1 hm'.le, mul_le_of_le_one_left hm'.le (unit_mem v).2⟩
  constructor
  · rw [trilinear_table h]
    refine congrArg (fun z => Except.ok (Spec.fins z)) (funext fun ch => ?_)
    have hb : ∀ i j : Fin (m + 1), axL m (Spec.unit b * (m : K)) (fun k : Fin (m + 1) =>
        M ch 0 * (((i : ℕ) : K) / m) + M ch 1 * (((j : ℕ) : K) / m) + M ch 2 * (((k : ℕ) : K) / m) + t ch)
        = M ch 0 * (((i : ℕ) : K) / m) + M ch 1 * (((j : ℕ) : K) / m) + M ch 2 * Spec.unit b + t ch := by
      intro i j
      rw [axL_affine m _ (hin b).1 (hin b).2 _
        (M ch 0 * (((i : ℕ) : K) / m) + M ch 1 * (((j : ℕ) : K) / m) + t ch) (M ch 2 / m)
        (fun k => by ring)]
      field_simp
      ring
    have hg : ∀ i : Fin (m + 1), axL m (Spec.unit g * (m : K)) (fun j : Fin (m + 1) =>
        M ch 0 * (((i : ℕ) : K) / m) + M ch 1 * (((j : ℕ) : K) / m) + M ch 2 * Spec.unit b + t ch)
        = M ch 0 * (((i : ℕ) : K) / m) + M ch 1 * Spec.unit g + M ch 2 * Spec.unit b + t ch := by
      intro i
      rw [axL_affine m _ (hin g).1 (hin g).2 _
        (M ch 0 * (((i : ℕ) : K) / m) + M ch 2 * Spec.unit b + t ch) (M ch 1 / m)
        (fun k => by ring)]
      field_simp
      ring
    simp only [hb, hg]
    rw [axL_affine m _ (hin r).1 (hin r).2 _
        (M ch 1 * Spec.unit g + M ch 2 * Spec.unit b + t ch) (M ch 0 / m) (fun k => by ring)]
    field_simp
    ring
  · obtain ⟨x, hx⟩ : ∃ x, Spec.unit r * (m : K) = x := ⟨_, rfl⟩
    obtain ⟨y, hy⟩ : ∃ x, Spec.unit g * (m : K) = x := ⟨_, rfl⟩
    obtain ⟨z, hz⟩ : ∃ x, Spec.unit b * (m : K) = x := ⟨_, rfl⟩
    rw [tetrahedral_table h r g b extra x y z hx hy hz]
    refine congrArg (fun z => Except.ok (Spec.fins z)) (funext fun ch => ?_)
    -- each axis: the raised index is one more, or the fraction is 0
    have ax : ∀ u : K, 0 ≤ u → u ≤ m → ∃ δ : K, Int.fract u * δ = Int.fract u ∧
        ∀ e : Bool, (((if e then axHi m u else axLo m u : Fin (m + 1)) : ℕ) : K)
          = u - Int.fract u + if e then δ else 0 := by
      intro u h0 h1
      obtain ⟨e1, e2⟩ := ax_cases m u h0 h1
      rcases e2 with e2 | ⟨e2, e3⟩
      · refine ⟨1, mul_one _, fun e => ?_⟩
        cases e
        · simpa using e1
        · simpa using e2
      · refine ⟨0, by rw [e3, mul_zero], fun e => ?_⟩
        cases e
        · simpa using e1
        · simpa [e2] using e1
    obtain ⟨δx, fx, cx⟩ := ax x (hx ▸ (hin r).1) (hx ▸ (hin r).2)
    obtain ⟨δy, fy, cy⟩ := ax y (hy ▸ (hin g).1) (hy ▸ (hin g).2)
    obtain ⟨δz, fz, cz⟩ := ax z (hz ▸ (hin b).1) (hz ▸ (hin b).2)
    have er : Spec.unit r = x / m := by rw [← hx]; field_simp
    have eg : Spec.unit g = y / m := by rw [← hy]; field_simp
    have eb : Spec.unit b = z / m := by rw [← hz]; field_simp
    have hc : cellCorner (fun (i j k : Fin (m + 1)) ch => M ch 0 * (((i : ℕ) : K) / m)
        + M ch 1 * (((j : ℕ) : K) / m) + M ch 2 * (((k : ℕ) : K) / m) + t ch) x y z ch
        = fun e => (M ch 0 * ((x - Int.fract x) / m) + M ch 1 * ((y - Int.fract y) / m)
            + M ch 2 * ((z - Int.fract z) / m) + t ch)
          + (if e 0 then ![M ch 0 * (δx / m), M ch 1 * (δy / m), M ch 2 * (δz / m)] 0 else 0)
          + (if e 1 then ![M ch 0 * (δx / m), M ch 1 * (δy / m), M ch 2 * (δz / m)] 1 else 0)
          + (if e 2 then ![M ch 0 * (δx / m), M ch 1 * (δy / m), M ch 2 * (δz / m)] 2 else 0) := by
      funext e
      have pull : ∀ (c : Bool) (q d : K), (if c then q * (d / m) else 0)
          = q * ((if c then d else 0) / m) := by
        intro c q d; cases c <;> simp
      simp only [cellCorner, cx, cy, cz, Matrix.cons_val_zero, Matrix.cons_val_one, Matrix.cons_val,
        pull]
      ring
    rw [hc, tetra_affine _ _ _ _ (tetraOrder_sorted _ _ _).2.2, er, eg, eb]
    simp only [Matrix.cons_val_zero, Matrix.cons_val_one, Matrix.cons_val]
    have q : ∀ f p d : K, f * d = f → f * (p * (d / m)) = p * (f / m) := by
      intro f p d hfd
      rw [← mul_div_assoc, ← mul_div_assoc, ← mul_div_assoc]
      congr 1
      calc f * (p * d) = p * (f * d) := by ring
        _ = p * f := by rw [hfd]
    rw [q _ _ _ fx, q _ _ _ fy, q _ _ _ fz]
    ring

/-- The node `simple3DLUT` builds and the table in it, with either interpolation. -/
theorem sampled3_table (id tid inD outD st : AVal) (m : ℕ)
    (f : Flt K → Flt K → Flt K → Py (List (Flt K))) (g : K → K → K → Fin 3 → K)
    (hf : ∀ x y z, f (.fin x) (.fin y) (.fin z) = .ok (Spec.fins (g x y z))) :
    ∃ b l a, simple3DLUT id tid [m + 2, m + 2, m + 2] f inD outD = .ok (b, l) ∧
      PlainLut3 (b.setAttribute "interpolation" st) inD st a ∧
      Table3D a (fun i j k : Fin (m + 1 + 1) => g ((i : ℕ) / ((m + 1 : ℕ) : K))
        ((j : ℕ) / ((m + 1 : ℕ) : K)) ((k : ℕ) / ((m + 1 : ℕ) : K))) := by
  refine ⟨_, _, _, simple3DLUT_cube id tid inD outD m f g hf, ⟨rfl, rfl, rfl, rfl, rfl⟩, ⟨[3], rfl⟩, rfl⟩

/-- C23: the cube sampled from an affine map, processed with either interpolation,
is that map of the colour confined to the unit cube. -/
theorem C23_sampled (A : Arith K) (hA : A.Exact) (id tid inD outD st : AVal)
    (hst : st = .str "trilinear" ∨ st = .str "tetrahedral") (m : ℕ)
    (M : Fin 3 → Fin 3 → K) (t : Fin 3 → K)
    (f : Flt K → Flt K → Flt K → Py (List (Flt K)))
    (hf : ∀ x y z, f (.fin x) (.fin y) (.fin z)
      = .ok (Spec.fins fun ch => M ch 0 * x + M ch 1 * y + M ch 2 * z + t ch)) :
    ∃ b l, simple3DLUT id tid [m + 2, m + 2, m + 2] f inD outD = .ok (b, l) ∧
      ∀ (stride : ℕ), 0 < stride → ∀ pixels : List (Spec.Pixel K),
        (∀ p ∈ pixels, p.toList.length = stride) →
        ∃ res, lut3dProcess A (b.setAttribute "interpolation" st)
            (pixels.map Spec.Pixel.toList).flatten stride = .ok res ∧
          res.out = (pixels.map fun p => Spec.fins (fun ch =>
            M ch 0 * Spec.unit (Spec.convert (some inD) none p.r)
            + M ch 1 * Spec.unit (Spec.convert (some inD) none p.g)
            + M ch 2 * Spec.unit (Spec.convert (some inD) none p.b) + t ch) ++ p.extra).flatten := by
  obtain ⟨b, l, a, hb, hn, ht⟩ := sampled3_table id tid inD outD st m f _ hf
  refine ⟨b, l, hb, fun stride hs pixels hp => ?_⟩
  have key := C23_affine (m := m + 1) (by omega) a M t ht
  exact C22_node A hA _ inD st a hn
    (fun r g b ch => M ch 0 * Spec.unit r + M ch 1 * Spec.unit g + M ch 2 * Spec.unit b + t ch)
    (hst.imp (fun h => ⟨h, fun r g b rest => (key r g b rest).1⟩)
      (fun h => ⟨h, fun r g b rest => (key r g b rest).2⟩)) stride pixels hs hp

/-- C23: the identity cube confines each channel to [0, 1] and changes nothing else. -/
theorem C23_identity (A : Arith K) (hA : A.Exact) (id tid inD outD st : AVal)
    (hst : st = .str "trilinear" ∨ st = .str "tetrahedral") (m : ℕ) :
    ∃ b l, simple3DLUT id tid [m + 2, m + 2, m + 2] (fun x y z : Flt K => .ok [x, y, z]) inD outD
        = .ok (b, l) ∧
      ∀ (stride : ℕ), 0 < stride → ∀ pixels : List (Spec.Pixel K),
        (∀ p ∈ pixels, p.toList.length = stride) →
        ∃ res, lut3dProcess A (b.setAttribute "interpolation" st)
            (pixels.map Spec.Pixel.toList).flatten stride = .ok res ∧
          res.out = (pixels.map fun p => [Flt.fin (Spec.unit (Spec.convert (some inD) none p.r)),
            .fin (Spec.unit (Spec.convert (some inD) none p.g)),
            .fin (Spec.unit (Spec.convert (some inD) none p.b))] ++ p.extra).flatten := by
  obtain ⟨b, l, hb, h⟩ := C23_sampled A hA id tid inD outD st hst m
    (fun ch c => if ch = c then 1 else 0) (fun _ => 0) (fun x y z => .ok [x, y, z]) (by
      intro x y z
      simp [Spec.fins, List.ofFn_succ])
  refine ⟨b, l, hb, fun stride hs pixels hp => ?_⟩
  obtain ⟨res, h1, h2⟩ := h stride hs pixels hp
  refine ⟨res, h1, ?_⟩
  rw [h2]
  congr 1
  apply List.map_congr_left
  intro p _
  simp [Spec.fins, List.ofFn_succ]

/-! ### Tables that are not cubes -/

/-- An array of `a × b × c` colours in row-major order. -/
def boxArr {a b c : ℕ} (V : Fin a → Fin b → Fin c → Fin 3 → K) : Arr K where
  dims := [a, b, c, 3]
  values := Spec.cube fun i j k ch => .fin (V i j k ch)

/-- C24 is false: for every size with unequal sides there are a table and a lattice
point for which `lookup3D` returns another colour than the one stored there. -/
theorem C24_false (a b c : ℕ) (ha : 2 ≤ a) (hb : 2 ≤ b) (hc : 2 ≤ c) (hne : ¬ (a = b ∧ b = c)) :
    ∃ (V : Fin a → Fin b → Fin c → Fin 3 → K) (i : Fin a) (j : Fin b) (k : Fin c),
      (boxArr V).lookup3D (i : ℕ) (j : ℕ) (k : ℕ) ≠ .ok (Spec.fins (V i j k)) := by
  let V : Fin a → Fin b → Fin c → Fin 3 → K := fun i j k _ =>
    ((((i : ℕ) * b + (j : ℕ)) * c + (k : ℕ) : ℕ) : K)
  -- the colour stored at a flat position
  have slice : ∀ q, q < a * b * c → pySlice (boxArr V).values (q * 3) (q * 3 + 3)
      = Spec.fins fun _ : Fin 3 => ((q : ℕ) : K) := by
    intro q hq
    have hk : q % c < c := Nat.mod_lt _ (by omega)
    have hj : q / c % b < b := Nat.mod_lt _ (by omega)
    have hi : q / c / b < a := by
      rw [Nat.div_div_eq_div_mul]
      apply Nat.div_lt_of_lt_mul
      calc q < a * b * c := hq
        _ = c * b * a := by ring
    have e : (q / c / b * b + q / c % b) * c + q % c = q := by
      rw [Nat.div_add_mod', Nat.div_add_mod']
    have := cube_slice (fun i j k ch => Flt.fin (V i j k ch)) _ _ _ hi hj hk
    rw [e] at this
    show pySlice (Spec.cube _) _ _ = _
    rw [this]
    simp only [V, e]
    rfl
  have look : ∀ (i : Fin a) (j : Fin b) (k : Fin c), (i : ℕ) * a * b + j * b + k < a * b * c →
      (boxArr V).lookup3D (i : ℕ) (j : ℕ) (k : ℕ)
        = (.ok (Spec.fins fun _ : Fin 3 => (((i : ℕ) * a * b + j * b + k : ℕ) : K)) : Py (List (Flt K))) := by
    intro i j k hq
    rw [← slice _ hq]
    unfold Arr.lookup3D Arr.dims3
    simp only [boxArr, py_ok_bind, py_pure]
    have e1 : (max 0 (min ((i : ℕ) : ℤ) ((a : ℤ) - 1))).toNat = i := by have := i.2; omega
    have e2 : (max 0 (min ((j : ℕ) : ℤ) ((b : ℤ) - 1))).toNat = j := by have := j.2; omega
    have e3 : (max 0 (min ((k : ℕ) : ℤ) ((c : ℤ) - 1))).toNat = k := by have := k.2; omega
    rw [e1, e2, e3]
  have differ : ∀ p q : ℕ, p ≠ q →
      (.ok (Spec.fins fun _ : Fin 3 => (p : K)) : Py (List (Flt K))) ≠ .ok (Spec.fins fun _ : Fin 3 => (q : K)) := by
    intro p q hpq h
    simp [Spec.fins, List.ofFn_succ] at h
    exact hpq h
  by_cases hbc : b = c
  · subst hbc
    refine ⟨V, ⟨1, by omega⟩, ⟨0, by omega⟩, ⟨0, by omega⟩, ?_⟩
    rw [look]
    · refine differ _ _ ?_
      simp only [one_mul, zero_mul, add_zero]
      intro h
      exact hne ⟨Nat.eq_of_mul_eq_mul_right (by omega) h, rfl⟩
    · simp only [one_mul, zero_mul, add_zero]
      nlinarith [Nat.mul_le_mul ha hb]
  · refine ⟨V, ⟨0, by omega⟩, ⟨1, by omega⟩, ⟨0, by omega⟩, ?_⟩
    rw [look]
    · refine differ _ _ ?_
      simp only [one_mul, zero_mul, zero_add, add_zero]
      exact hbc
    · simp only [one_mul, zero_mul, zero_add, add_zero]
      nlinarith [Nat.mul_le_mul ha hb, Nat.mul_le_mul (Nat.mul_le_mul ha (le_refl b)) hc]

/-- C24, the case that holds: in a cube `lookup3D` returns the entry addressed.
Missing: unequal sides. -/
theorem C24_cube_partial {m : ℕ} (V : Fin (m + 1) → Fin (m + 1) → Fin (m + 1) → Fin 3 → K)
    (i j k : Fin (m + 1)) :
    (boxArr V).lookup3D (i : ℕ) (j : ℕ) (k : ℕ) = .ok (Spec.fins (V i j k)) := by
  have h : Table3D (boxArr V) V := ⟨⟨[3], rfl⟩, rfl⟩
  rw [lookup3D_table h, clampRow_of (Nat.lt_succ_iff.mp i.2), clampRow_of (Nat.lt_succ_iff.mp j.2),
    clampRow_of (Nat.lt_succ_iff.mp k.2)]

/-! ### Ties -/

/-- The scaled position inside a cell. -/
theorem cell_position {m : ℕ} (i : Fin m) (f : K) (h0 : 0 ≤ f) (h1 : f < 1) :
    ∃ t : K, Spec.unit (.fin ((((i : ℕ) : K) + f) / m)) * m = t ∧ Int.fract t = f ∧
      axLo m t = i.castSucc ∧ axHi m t = i.succ := by
  have hm : 0 < m := i.pos
  have hm' : (0 : K) < m := Nat.cast_pos.mpr hm
  have hi : (((i : ℕ) + 1 : ℕ) : K) ≤ m := by exact_mod_cast i.2
  push_cast at hi
  have e0 : 0 ≤ (((i : ℕ) : K) + f) / m := by positivity
  have e1 : (((i : ℕ) : K) + f) / m ≤ 1 := (div_le_one hm').mpr (by linarith)
  have hfl : ⌊((i : ℕ) : K) + f⌋ = ((i : ℕ) : ℤ) := by
    rw [Int.floor_eq_iff]
    push_cast
    constructor <;> linarith
  refine ⟨((i : ℕ) : K) + f, ?_, ?_, ?_, ?_⟩
  · simp only [Spec.unit]
    rw [max_eq_right e0, min_eq_right e1, div_mul_cancel₀ _ hm'.ne']
  · rw [Int.fract, hfl]; push_cast; ring
  · ext
    simp only [axLo, hfl, clampRow]
    have := i.2
    simp
  · ext
    simp only [axHi, hfl, clampRow]
    have := i.2
    simp; omega

/-- C25: in a cell, the tetrahedral lookup is the barycentric interpolation of every
tetrahedron that contains the position, so on a shared boundary it does not matter
which one is used. -/
theorem C25_ties {m : ℕ} (a : Arr K)
    (V : Fin (m + 1) → Fin (m + 1) → Fin (m + 1) → Fin 3 → K) (h : Table3D a V)
    (i j k : Fin m) (f : Fin 3 → K) (h0 : ∀ d, 0 ≤ f d) (h1 : ∀ d, f d < 1)
    (s : Fin 3 → Fin 3) (hs : Function.Injective s) (h01 : f (s 1) ≤ f (s 0))
    (h12 : f (s 2) ≤ f (s 1)) (extra : List (Flt K)) :
    a.lookup3DTetrahedral (.fin (((i : ℕ) + f 0) / m) :: .fin (((j : ℕ) + f 1) / m) ::
        .fin (((k : ℕ) + f 2) / m) :: extra)
      = .ok (Spec.fins fun ch => Spec.tetra f (fun e =>
          V (if e 0 then i.succ else i.castSucc) (if e 1 then j.succ else j.castSucc)
            (if e 2 then k.succ else k.castSucc) ch) s) := by
  obtain ⟨x, hx, fx, lx, ux⟩ := cell_position i (f 0) (h0 0) (h1 0)
  obtain ⟨y, hy, fy, ly, uy⟩ := cell_position j (f 1) (h0 1) (h1 1)
  obtain ⟨z, hz, fz, lz, uz⟩ := cell_position k (f 2) (h0 2) (h1 2)
  rw [tetrahedral_table h _ _ _ extra x y z hx hy hz, fx, fy, fz]
  have ef : ![f 0, f 1, f 2] = f := by
    funext d; fin_cases d <;> rfl
  have hsorted := tetraOrder_sorted (f 0) (f 1) (f 2)
  rw [ef] at hsorted ⊢
  refine congrArg (fun z => Except.ok (Spec.fins z)) (funext fun ch => ?_)
  rw [tetra_order f _ _ s hsorted.2.2 hs hsorted.1 hsorted.2.1 h01 h12]
  unfold cellCorner
  rw [lx, ux, ly, uy, lz, uz]

/-- C25: where two of the coordinates are lattice positions, both interpolations
agree. -/
theorem C25_edges {m : ℕ} (hm : 0 < m) (a : Arr K)
    (V : Fin (m + 1) → Fin (m + 1) → Fin (m + 1) → Fin 3 → K) (h : Table3D a V)
    (i j : Fin (m + 1)) (v : Flt K) (extra : List (Flt K)) :
    a.lookup3DTetrahedral (v :: .fin ((i : ℕ) / m) :: .fin ((j : ℕ) / m) :: extra)
      = a.lookup3DTrilinear (v :: .fin ((i : ℕ) / m) :: .fin ((j : ℕ) / m) :: extra) ∧
    a.lookup3DTetrahedral (.fin ((i : ℕ) / m) :: v :: .fin ((j : ℕ) / m) :: extra)
      = a.lookup3DTrilinear (.fin ((i : ℕ) / m) :: v :: .fin ((j : ℕ) / m) :: extra) ∧
    a.lookup3DTetrahedral (.fin ((i : ℕ) / m) :: .fin ((j : ℕ) / m) :: v :: extra)
      = a.lookup3DTrilinear (.fin ((i : ℕ) / m) :: .fin ((j : ℕ) / m) :: v :: extra) := by
  obtain ⟨t, ht⟩ : ∃ t, Spec.unit v * (m : K) = t := ⟨_, rfl⟩
  have hf := Int.fract_nonneg t
  have e0 : ∀ s s' : Fin 3 → Fin 3, Function.Injective s → Function.Injective s' →
    ∀ (f : Fin 3 → K) c, f (s 1) ≤ f (s 0) → f (s 2) ≤ f (s 1) → f (s' 1) ≤ f (s' 0) →
      f (s' 2) ≤ f (s' 1) → Spec.tetra f c s = Spec.tetra f c s' :=
    fun s s' hs hs' f c h1 h2 h3 h4 => tetra_order f c s s' hs hs' h1 h2 h3 h4
  refine ⟨?_, ?_, ?_⟩
  · rw [tetrahedral_table h _ _ _ extra _ _ _ ht (unit_lattice hm i) (unit_lattice hm j),
      trilinear_table h, ht, unit_lattice hm, unit_lattice hm]
    refine congrArg (fun z => Except.ok (Spec.fins z)) (funext fun ch => ?_)
    simp only [axL_nat, Int.fract_natCast]
    have hs := tetraOrder_sorted (Int.fract t) 0 0
    rw [e0 _ ![0, 1, 2] hs.2.2 (by decide) _ _ hs.1 hs.2.1 hf le_rfl]
    simp [Spec.tetra, cellCorner, axLo_nat, axL]
  · rw [tetrahedral_table h _ _ _ extra _ _ _ (unit_lattice hm i) ht (unit_lattice hm j),
      trilinear_table h, ht, unit_lattice hm, unit_lattice hm]
    refine congrArg (fun z => Except.ok (Spec.fins z)) (funext fun ch => ?_)
    simp only [axL_nat, Int.fract_natCast]
    have hs := tetraOrder_sorted 0 (Int.fract t) 0
    rw [e0 _ ![1, 0, 2] hs.2.2 (by decide) _ _ hs.1 hs.2.1 hf le_rfl]
    simp [Spec.tetra, cellCorner, axLo_nat, axL]
  · rw [tetrahedral_table h _ _ _ extra _ _ _ (unit_lattice hm i) (unit_lattice hm j) ht,
      trilinear_table h, ht, unit_lattice hm, unit_lattice hm]
    refine congrArg (fun z => Except.ok (Spec.fins z)) (funext fun ch => ?_)
    simp only [axL_nat, Int.fract_natCast]
    have hs := tetraOrder_sorted 0 0 (Int.fract t)
    rw [e0 _ ![2, 0, 1] hs.2.2 (by decide) _ _ hs.1 hs.2.1 hf le_rfl]
    simp [Spec.tetra, cellCorner, axLo_nat, axL]

/-! ### The caller's dimension list -/

/-- C69 is false: `setArray` lengthens every dimension list it is given, and so does
`simple3DLUT`. -/
theorem C69_false (b : Base K) (dimension : List ℕ) (values : List (Flt K)) (enc : String) :
    (lut3dSetArray b dimension values enc).2 ≠ dimension ∧
    (∀ id tid f inD outD b' l, simple3DLUT (K := K) id tid dimension f inD outD = .ok (b', l) →
      l ≠ dimension) := by
  have hne : dimension ++ [3] ≠ dimension := by simp
  refine ⟨hne, ?_⟩
  intro id tid f inD outD b' l h
  unfold simple3DLUT at h
  simp only [py_bind_eq_ok] at h
  obtain ⟨_, _, _, _, _, _, vals, _, h⟩ := h
  simp only [py_pure, Except.ok.injEq, lut3dSetArray, Prod.mk.injEq] at h
  rw [← h.2]; exact hne

/-- C69, what holds all the same: using the lengthened list again gives a LUT with the
same lookups.  Missing: that the list is unchanged. -/
theorem C69_reuse_partial (b b' : Base K) (d0 d1 d2 : ℕ) (rest : List ℕ) (values : List (Flt K))
    (enc : String) :
    ∃ a a', (lut3dSetArray b (d0 :: d1 :: d2 :: rest) values enc).1.array = .ok a ∧
      (lut3dSetArray b' (lut3dSetArray b (d0 :: d1 :: d2 :: rest) values enc).2 values enc).1.array
        = .ok a' ∧
      ∀ p, a.lookup3DTrilinear p = a'.lookup3DTrilinear p ∧
        a.lookup3DTetrahedral p = a'.lookup3DTetrahedral p := by
  have harr : ∀ (b : Base K) (dims : List ℕ), (lut3dSetArray b dims values enc).1.array
      = .ok { dims := dims ++ [3], values := values,
              integers := bitDepthIsInteger (b.attrs.get? "outBitDepth"),
              floatEncoding := enc } := by
    intro b dims
    simp [lut3dSetArray, Base.array, Base.addElement, arraysOf]
  refine ⟨_, _, harr _ _, harr _ _, fun p => ?_⟩
  constructor <;> rfl

/-! ### Infinite entries -/

/-- C74 is false: at its own sample position an infinite entry is returned as NaN, in
every table. -/
theorem C74_false {m c : ℕ} (hm : 0 < m) (a : Arr K) (V : Fin (m + 1) → Fin (c + 1) → Flt K)
    (hd : a.dims = [m + 1, c + 1]) (hv : a.values = Spec.rowMajor V) (hc : c = 0 ∨ c = 2)
    (k : Fin (m + 1)) (ch : ℕ) (s : Bool) (hk : V k (Spec.column c ch) = .inf s) :
    a.lookup1DLinear (.fin ((k : ℕ) / m)) ch = .ok .nan := by
  have hm' : (m : K) ≠ 0 := Nat.cast_ne_zero.mpr hm.ne'
  have h0 : pyGet a.dims 0 = .ok (m + 1) := by rw [hd]; rfl
  have em : ((m + 1 : ℕ) : K) - 1 = m := by push_cast; ring
  have e : ((Flt.fin (((k : ℕ) : K) / m)) * .fin (((m + 1 : ℕ) : K) - 1)) = .fin ((k : ℕ) : K) := by
    rw [em, Flt.fin_mul, div_mul_cancel₀ _ hm']
  have hl : a.lookup1D ((k : ℕ) : ℤ) ch = .ok (.inf s) := by
    rw [lookup1D_table a V [] hd hv hc, clampRow_of (Nat.lt_succ_iff.mp k.2), hk]
  simp only [Arr.lookup1DLinear, h0, py_ok_bind, e, Int.floor_natCast, Int.ceil_natCast, hl,
    Int.cast_natCast, sub_self, py_pure, Flt.fin_sub, sub_zero]
  show Except.ok (Flt.add (Flt.mul (.fin 1) (.inf s)) (Flt.mul (.fin 0) (.inf s))) = _
  simp only [Flt.mul, if_true, one_ne_zero, if_false]
  rfl

/-- C74, the case that holds: finite entries are returned at their own positions, also
with infinite entries elsewhere in the table.  Missing: infinite entries. -/
theorem C74_finite_partial {m c : ℕ} (hm : 0 < m) (a : Arr K) (V : Fin (m + 1) → Fin (c + 1) → Flt K)
    (hd : a.dims = [m + 1, c + 1]) (hv : a.values = Spec.rowMajor V) (hc : c = 0 ∨ c = 2)
    (k : Fin (m + 1)) (ch : ℕ) (x : K) (hk : V k (Spec.column c ch) = .fin x) :
    a.lookup1DLinear (.fin ((k : ℕ) / m)) ch = .ok (.fin x) := by
  have hm' : (m : K) ≠ 0 := Nat.cast_ne_zero.mpr hm.ne'
  have h0 : pyGet a.dims 0 = .ok (m + 1) := by rw [hd]; rfl
  have em : ((m + 1 : ℕ) : K) - 1 = m := by push_cast; ring
  have e : ((Flt.fin (((k : ℕ) : K) / m)) * .fin (((m + 1 : ℕ) : K) - 1)) = .fin ((k : ℕ) : K) := by
    rw [em, Flt.fin_mul, div_mul_cancel₀ _ hm']
  have hl : a.lookup1D ((k : ℕ) : ℤ) ch = .ok (.fin x) := by
    rw [lookup1D_table a V [] hd hv hc, clampRow_of (Nat.lt_succ_iff.mp k.2), hk]
  simp only [Arr.lookup1DLinear, h0, py_ok_bind, e, Int.floor_natCast, Int.ceil_natCast, hl,
    Int.cast_natCast, sub_self, py_pure, Flt.fin_sub, sub_zero]
  simp

/-! ### Instances -/

/-- A 2 × 2 × 2 cube with a different colour at each corner. -/
def exampleCube : Arr ℚ := boxArr (a := 2) (b := 2) (c := 2) fun i j k ch =>
  (i : ℕ) * 3 + (j : ℕ) * 5 - (k : ℕ) * 7 + (ch : ℕ)

example : Table3D (m := 1) exampleCube
    (fun i j k ch => (i : ℕ) * 3 + (j : ℕ) * 5 - (k : ℕ) * 7 + (ch : ℕ)) := ⟨⟨[3], rfl⟩, rfl⟩

/-- A LUT3D node around it. -/
def exampleLut3 : Base ℚ where
  attrs := [("inBitDepth", .str "10i"), ("outBitDepth", .str "16f"),
    ("interpolation", .str "tetrahedral")]
  elements := [.array exampleCube]

example : PlainLut3 exampleLut3 (.str "10i") (.str "tetrahedral") exampleCube :=
  ⟨rfl, rfl, rfl, rfl, rfl⟩

/-- The wrong entry is also what the interpolating lookup returns: in a 2 × 2 × 3 table
the point (0, 1, 0). -/
example : (boxArr (K := ℚ) (a := 2) (b := 2) (c := 3) fun i j k ch =>
    (100 * (i : ℕ) + 10 * (j : ℕ) + (k : ℕ) : ℚ)).lookup3DTrilinear [.fin 0, .fin 1, .fin 0]
    = .ok [.fin 2, .fin 2, .fin 2] := by decide +kernel

/-- A tie of the first two axes: both orders are admissible in `C25_ties`. -/
example : ∃ f : Fin 3 → ℚ, (∀ d, 0 ≤ f d) ∧ (∀ d, f d < 1) ∧ f (![0, 1, 2] 1) ≤ f (![0, 1, 2] 0) ∧
    f (![1, 0, 2] 1) ≤ f (![1, 0, 2] 0) ∧ f 2 ≤ f 0 ∧ f 2 ≤ f 1 := by
  refine ⟨![1/2, 1/2, 1/4], ?_, ?_, ?_⟩
  · intro d; fin_cases d <;> norm_num
  · intro d; fin_cases d <;> norm_num
  · refine ⟨le_rfl, le_rfl, ?_, ?_⟩ <;> show (1 / 4 : ℚ) ≤ 1 / 2 <;> norm_num

/-- An affine colour transform for `C23_sampled`. -/
example : ∃ f : Flt ℚ → Flt ℚ → Flt ℚ → Py (List (Flt ℚ)), ∀ x y z : ℚ,
    f (.fin x) (.fin y) (.fin z) = .ok (Spec.fins fun ch =>
      !![(1 : ℚ), 2, 0; 0, 1, 0; 3, 0, -1] ch 0 * x + !![(1 : ℚ), 2, 0; 0, 1, 0; 3, 0, -1] ch 1 * y
      + !![(1 : ℚ), 2, 0; 0, 1, 0; 3, 0, -1] ch 2 * z + ![(1 : ℚ), 0, 5] ch) := by
  refine ⟨fun a b c => .ok [a + .fin 2 * b + .fin 1, b, .fin 3 * a - c + .fin 5], fun x y z => ?_⟩
  simp [Spec.fins, List.ofFn_succ]
  ring

/-- A table with an infinite first entry. -/
example : ∃ (a : Arr ℚ) (V : Fin 2 → Fin 1 → Flt ℚ), a.dims = [2, 1] ∧
    a.values = Spec.rowMajor V ∧ V 0 (Spec.column 0 0) = .inf false ∧ V 1 (Spec.column 0 0) = .fin 3 :=
  ⟨⟨[2, 1], [.inf false, .fin 3], false, false, "string"⟩, ![![.inf false], ![.fin 3]],
    rfl, rfl, rfl, rfl⟩

end CLF
