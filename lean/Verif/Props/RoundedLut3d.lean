import Verif.Lemmas.TetraRow
import Verif.Props.RoundedLut1d

/-! # Property C124: three-dimensional LUTs in IEEE arithmetic -/

set_option linter.unusedSectionVars false

namespace CLF

variable {K : Type} [Field K] [LinearOrder K] [IsStrictOrderedRing K] [FloorRing K]

/-- The node, for any rounding, in terms of what a lookup gives. -/
theorem lut3dR_node (R : Rounding K) (b : Base K) (din st : AVal) (a : Arr K)
    (h : PlainLut3 b din st a) (F G : Flt K → Flt K → Flt K → Fin 3 → K)
    (hF : (st = .str "trilinear" ∧ ∀ r g bl rest,
        a.lookup3DTrilinearR R (r :: g :: bl :: rest) = .ok (Spec.fins (F r g bl))) ∨
      (st = .str "tetrahedral" ∧ ∀ r g bl rest,
        a.lookup3DTetrahedralR R (r :: g :: bl :: rest) = .ok (Spec.fins (F r g bl))))
    (hG : ∀ r g bl ch, R single (.fin (F r g bl ch)) = .fin (G r g bl ch))
    (stride : ℕ) (pixels : List (Spec.Pixel K)) (hs : 0 < stride)
    (hp : ∀ p ∈ pixels, p.toList.length = stride) :
    ∃ res, lut3dProcessR R b (pixels.map Spec.Pixel.toList).flatten stride = .ok res ∧
      res.out = (pixels.map fun p => Spec.fins (G (R single (toUnitR R p.r (some din)))
        (R single (toUnitR R p.g (some din))) (R single (toUnitR R p.b (some din)))) ++ p.extra).flatten := by
  obtain ⟨v2, e2⟩ : ∃ v, b.attrE "outBitDepth" = .ok v := by
    obtain ⟨v, hv⟩ := Option.isSome_iff_exists.mp h.outDepth
    exact ⟨some v, by simp [Base.attrE, Dict.getE, hv]⟩
  have e1 : b.attrE "inBitDepth" = .ok (some din) := by
    simp [Base.attrE, Dict.getE, h.inDepth]
  have hst : st = .str "trilinear" ∨ st = .str "tetrahedral" := hF.imp And.left And.left
  unfold lut3dProcessR
  simp only [e1, e2, h.array, py_ok_bind, h.style, h.noMaps]
  let P : List (Flt K) → List (Flt K) := fun px => match px with
    | r :: g :: bl :: rest => Spec.fins (G (R single (toUnitR R r (some din)))
        (R single (toUnitR R g (some din))) (R single (toUnitR R bl (some din)))) ++ rest
    | px => px
  have hP : (pixels.map fun p => Spec.fins (G (R single (toUnitR R p.r (some din)))
        (R single (toUnitR R p.g (some din))) (R single (toUnitR R p.b (some din)))) ++ p.extra)
      = (pixels.map Spec.Pixel.toList).map P := by
    rw [List.map_map]; rfl
  rw [viewLoop_pixels stride hs _ P (pixels.map Spec.Pixel.toList)]
  · exact ⟨_, rfl, by rw [hP]⟩
  · intro p hp'
    obtain ⟨q, hq, rfl⟩ := List.mem_map.mp hp'
    exact hp q hq
  · intro p hp'
    obtain ⟨q, hq, rfl⟩ := List.mem_map.mp hp'
    have hlen : min 3 q.toList.length = 3 := by simp [Spec.Pixel.toList]
    rw [hlen, chanLoop_ok 3 _ (fun _ x => R single (toUnitR R x (some din))) _ (by
      simp [Spec.Pixel.toList])]
    · have hmap : (q.toList.mapIdx fun i x => if i < 3 then R single (toUnitR R x (some din)) else x)
          = R single (toUnitR R q.r (some din)) :: R single (toUnitR R q.g (some din)) ::
            R single (toUnitR R q.b (some din)) :: q.extra := by
        have hx : ∀ l : List (Flt K), (l.mapIdx fun i x =>
            if i + 1 + 1 + 1 < 3 then R single (toUnitR R x (some din)) else x) = l := by
          intro l
          apply List.ext_getElem (by simp)
          intro i h1 h2
          have : ¬ i + 1 + 1 + 1 < 3 := by omega
          rw [List.getElem_mapIdx, if_neg this]
        simp only [Spec.Pixel.toList, List.mapIdx_cons, hx]
        simp
      have hassign : ∀ (r g bl : Flt K) (x y z : Flt K) rest,
          assign3R R (x :: y :: z :: rest) (Spec.fins (F r g bl)) = .ok (Spec.fins (G r g bl) ++ rest) := by
        intro r g bl x y z rest
        have e : ∀ u : Fin 3 → K, Spec.fins u = [.fin (u 0), .fin (u 1), .fin (u 2)] := by
          intro u
          simp [Spec.fins, List.ofFn_succ]
        rw [e, e]
        simp [assign3R, hG]
      rw [hmap]
      simp only [py_ok_bind]
      rcases hF with ⟨rfl, hF⟩ | ⟨rfl, hF⟩
      · simp only [if_true, hF, py_ok_bind, hassign]; rfl
      · have : (AVal.str "tetrahedral" = .str "trilinear") = False := by
          simp
        simp only [this, if_false, if_true, hF, py_ok_bind, hassign]; rfl
    · intro i hi _
      simp only [lutNormalizeR, List.length_nil, Nat.not_lt_zero, if_false, py_pure]
  · intro p hp'
    obtain ⟨q, hq, rfl⟩ := List.mem_map.mp hp'
    have := hp q hq
    simpa [P, Spec.Pixel.toList, Spec.fins] using this

/-- `x` is, for a cube of `m + 1` entries per axis, a position of entry `i` on which no rounding acts. -/
def Spec.Hits (d : Depth) (m : ℕ) (x : K) (i : Fin (m + 1)) : Prop :=
  x ≤ 0 ∧ i = 0 ∨ Spec.fullScale d ≤ x ∧ i = Fin.last m ∨
    Spec.fullScale (K := K) d = 1 ∧ ∃ n ≤ 23, m = 2 ^ n ∧ x = (i : ℕ) / 2 ^ n

/-- `(1 - t) a + t b`. -/
def Spec.mix (t a b : K) : K := (1 - t) * a + t * b

/-- The number that is left of a value of depth `d` before a lookup. -/
theorem hits_pos (d : Depth) {m : ℕ} (hm : m < 2 ^ 53) {x : K} (hx : Spec.IsSingle x) {i : Fin (m + 1)} (h : Spec.Hits d m x i) :
    ∃ p, ieee single (toUnitR ieee (.fin x) d) = .fin p ∧ posF m (Spec.unit (.fin p)) = ((i : ℕ) : K) := by
  obtain ⟨p, hpe, hps, hle, hge, hone, hone', herr⟩ := unit_pos d hx
  rcases h with ⟨h0, rfl⟩ | ⟨h1, rfl⟩ | ⟨hd, n, hn, hmn, hxi⟩
  · refine ⟨p, hpe, ?_⟩
    have e : Spec.unit (.fin p : Flt K) = 0 := by
      simp only [Spec.unit]
      rw [max_eq_left (hle h0), min_eq_right zero_le_one]
    rw [e, posF, zero_mul, Fmt.near_zero]
    simp
  · refine ⟨p, hpe, ?_⟩
    have e : Spec.unit (.fin p : Flt K) = 1 := by
      simp only [Spec.unit]
      rw [max_eq_right (zero_le_one.trans (hone h1)), min_eq_left (hone h1)]
    rw [e, posF, one_mul, double_nat m hm]
    simp
  · refine ⟨x, ?_, ?_⟩
    · rcases toUnitR_cases ieee (.fin x) d with ⟨_, h255⟩ | ⟨e, _⟩
      · rw [hd] at h255
        norm_num at h255
      · rw [e]
        exact hx
    · have hi : (i : ℕ) ≤ m := Nat.lt_succ_iff.mp i.2
      have h2 : (0 : K) < 2 ^ n := by positivity
      have hx0 : 0 ≤ x := by rw [hxi]; positivity
      have hx1 : x ≤ 1 := by
        rw [hxi, div_le_one h2]
        have : ((i : ℕ) : K) ≤ ((2 ^ n : ℕ) : K) := by
          rw [← hmn]
          exact_mod_cast hi
        simpa using this
      have e : Spec.unit (.fin x : Flt K) = x := by
        simp only [Spec.unit]
        rw [max_eq_right hx0, min_eq_right hx1]
      have e2 : x * (m : K) = ((i : ℕ) : K) := by
        have : (m : K) = 2 ^ n := by exact_mod_cast congrArg (Nat.cast (R := K)) hmn
        rw [hxi, this]
        field_simp
      rw [e, posF, e2, double_nat _ (lt_of_le_of_lt hi hm)]

/-- Where a value between the ends is looked up. -/
theorem inner_pos (d : Depth) {m : ℕ} (hm0 : 0 < m) (hm : m < 2 ^ 53) {x : K} (hx : Spec.IsSingle x)
    (hq0 : 0 ≤ x / Spec.fullScale d) (hq1 : x / Spec.fullScale d ≤ 1) :
    ∃ p, ieee single (toUnitR ieee (.fin x) d) = .fin p ∧
      (0 ≤ posF m (Spec.unit (.fin p)) ∧ posF m (Spec.unit (.fin p)) ≤ m) ∧
      |posF m (Spec.unit (.fin p)) - x / Spec.fullScale d * m| ≤ m * (5 / 4 * (1 / 2 ^ 24)) := by
  obtain ⟨p, hpe, hps, hle, hge, hone, hone', herr⟩ := unit_pos d hx
  have hfs : (0 : K) < Spec.fullScale d := fullScale_pos _
  have hx0 : 0 ≤ x := by
    by_contra hc
    exact absurd hq0 (not_le.mpr (div_neg_of_neg_of_pos (not_le.mp hc) hfs))
  have p0 := hge hx0
  have p1 := hone' ((div_le_one hfs).mp hq1)
  obtain ⟨a1, a2, a3⟩ := posF_near hm0 hm p0 p1 hq0 hq1 herr
  have e : Spec.unit (.fin p : Flt K) = p := by
    simp only [Spec.unit]
    rw [max_eq_right p0, min_eq_right p1]
  exact ⟨p, hpe, by rw [e]; exact ⟨a1, a2⟩, by rw [e]; exact a3⟩

theorem unit_of_cell {m : ℕ} (hm0 : 0 < m) {q : K} {i : ℕ} (hi : i + 1 ≤ m) (h1 : (i : K) / m ≤ q) (h2 : q ≤ (i + 1 : ℕ) / m) :
    0 ≤ q ∧ q ≤ 1 := by
  have hm' : (0 : K) < m := Nat.cast_pos.mpr hm0
  refine ⟨le_trans (by positivity) h1, h2.trans ((div_le_one hm').mpr ?_)⟩
  exact_mod_cast hi

theorem tetraF_cell {m : ℕ} (V : Fin (m + 1) → Fin (m + 1) → Fin (m + 1) → Fin 3 → K) (x y z : K) (ch : Fin 3) (lo hi : K)
    (hlo : Spec.IsSingle lo) (hhi : Spec.IsSingle hi) (h : ∀ i j k, lo ≤ V i j k ch ∧ V i j k ch ≤ hi) :
    single.round (.fin (tetraF ![Int.fract x, Int.fract y, Int.fract z] (cellCorner V x y z ch)
        (tetraOrder (Int.fract x) (Int.fract y) (Int.fract z))))
      = .fin (single.near (tetraF ![Int.fract x, Int.fract y, Int.fract z] (cellCorner V x y z ch)
        (tetraOrder (Int.fract x) (Int.fract y) (Int.fract z)))) ∧
      lo ≤ single.near (tetraF ![Int.fract x, Int.fract y, Int.fract z] (cellCorner V x y z ch)
        (tetraOrder (Int.fract x) (Int.fract y) (Int.fract z))) ∧
      single.near (tetraF ![Int.fract x, Int.fract y, Int.fract z] (cellCorner V x y z ch)
        (tetraOrder (Int.fract x) (Int.fract y) (Int.fract z))) ≤ hi := by
  obtain ⟨s1, s2, _⟩ := tetraOrder_sorted (Int.fract x) (Int.fract y) (Int.fract z)
  have h0 : ∀ a, 0 ≤ ![Int.fract x, Int.fract y, Int.fract z] a := by
    intro a; fin_cases a <;> exact Int.fract_nonneg _
  have h1 : ∀ a, ![Int.fract x, Int.fract y, Int.fract z] a ≤ 1 := by
    intro a; fin_cases a <;> exact (Int.fract_lt_one _).le
  have hc : ∀ e, lo ≤ cellCorner V x y z ch e ∧ cellCorner V x y z ch e ≤ hi := fun e => h _ _ _
  exact tetraF_mem _ _ _ h0 h1 s1 s2 lo hi hlo hhi hc

/-- What both interpolations have in common. -/
theorem cubeR_lookup {m : ℕ} (hm : m < 2 ^ 53) (a : Arr K)
    (V : Fin (m + 1) → Fin (m + 1) → Fin (m + 1) → Fin 3 → K) (hT : Table3D a V) (hV : ∀ i j k ch, Spec.IsSingle (V i j k ch))
    (st : AVal) (hst : st = .str "trilinear" ∨ st = .str "tetrahedral") :
    ∃ F : Flt K → Flt K → Flt K → Fin 3 → K,
      ((st = .str "trilinear" ∧ ∀ r g bl rest, a.lookup3DTrilinearR ieee (r :: g :: bl :: rest) = .ok (Spec.fins (F r g bl))) ∨
        (st = .str "tetrahedral" ∧ ∀ r g bl rest, a.lookup3DTetrahedralR ieee (r :: g :: bl :: rest) = .ok (Spec.fins (F r g bl)))) ∧
      (∀ r g bl ch lo hi, Spec.IsSingle lo → Spec.IsSingle hi → (∀ i j k, lo ≤ V i j k ch ∧ V i j k ch ≤ hi) →
        single.round (.fin (F r g bl ch)) = .fin (single.near (F r g bl ch)) ∧ lo ≤ single.near (F r g bl ch) ∧
          single.near (F r g bl ch) ≤ hi) ∧
      (∀ r g bl (i j k : Fin (m + 1)), posF m (Spec.unit r) = ((i : ℕ) : K) → posF m (Spec.unit g) = ((j : ℕ) : K) →
        posF m (Spec.unit bl) = ((k : ℕ) : K) → F r g bl = V i j k) ∧
      (st = .str "trilinear" → ∀ r g bl, F r g bl = triF V (posF m (Spec.unit r)) (posF m (Spec.unit g)) (posF m (Spec.unit bl))) ∧
      (st = .str "tetrahedral" → ∀ r g bl ch, F r g bl ch
        = tetraF ![Int.fract (posF m (Spec.unit r)), Int.fract (posF m (Spec.unit g)), Int.fract (posF m (Spec.unit bl))]
          (cellCorner V (posF m (Spec.unit r)) (posF m (Spec.unit g)) (posF m (Spec.unit bl)) ch)
          (tetraOrder (Int.fract (posF m (Spec.unit r))) (Int.fract (posF m (Spec.unit g))) (Int.fract (posF m (Spec.unit bl))))) := by
  rcases hst with rfl | rfl
  · refine ⟨fun r g bl => triF V (posF m (Spec.unit r)) (posF m (Spec.unit g)) (posF m (Spec.unit bl)),
      .inl ⟨rfl, fun r g bl rest => trilinearR_table hT hV hm r g bl rest _ _ _ rfl rfl rfl⟩,
      fun r g bl ch lo hi h1 h2 h3 => triF_mem V _ _ _ ch lo hi h1 h2 h3, fun r g bl i j k h1 h2 h3 => ?_, fun _ _ _ _ => rfl,
      fun hc => absurd hc (by simp)⟩
    funext ch
    show triF V (posF m (Spec.unit r)) (posF m (Spec.unit g)) (posF m (Spec.unit bl)) ch = _
    rw [h1, h2, h3, triF_lattice V hV]
  · refine ⟨fun r g bl ch => tetraF ![Int.fract (posF m (Spec.unit r)), Int.fract (posF m (Spec.unit g)), Int.fract (posF m (Spec.unit bl))]
        (cellCorner V (posF m (Spec.unit r)) (posF m (Spec.unit g)) (posF m (Spec.unit bl)) ch)
        (tetraOrder (Int.fract (posF m (Spec.unit r))) (Int.fract (posF m (Spec.unit g))) (Int.fract (posF m (Spec.unit bl)))),
      .inr ⟨rfl, fun r g bl rest => tetrahedralR_table hT hV hm r g bl rest _ _ _ rfl rfl rfl⟩,
      fun r g bl ch lo hi h1 h2 h3 => ?_, fun r g bl i j k h1 h2 h3 => ?_, fun hc => absurd hc (by simp), fun _ _ _ _ _ => rfl⟩
    · exact tetraF_cell V _ _ _ ch lo hi h1 h2 h3
    · funext ch
      beta_reduce
      rw [h1, h2, h3, Int.fract_natCast, Int.fract_natCast, Int.fract_natCast]
      have e : cellCorner V ((i : ℕ) : K) ((j : ℕ) : K) ((k : ℕ) : K) ch (fun _ => false) = V i j k ch := by
        simp only [cellCorner, axLo_nat, Bool.false_eq_true, if_false]
      rw [tetraF_lattice _ _ (by rw [e]; exact (hV i j k ch).double), e]

/-- C124: a cube of `float32` entries in IEEE arithmetic.  The node replaces the colour of each pixel by three
finite values of `float32` and leaves other channels.  Whatever the pixel, each of them lies between two
entries of its channel; at positions of an entry on which no rounding acts it is that entry; and
trilinear interpolation is within `(3 J m + B) / 2^23 + 2^-150` of the exact one, `J` being the largest
difference of neighbouring entries, `B` the largest entry and `m + 1` the length of the cube. -/
theorem C124_cube (b : Base K) (din st : AVal) (a : Arr K) (h : PlainLut3 b din st a)
    (hst : st = .str "trilinear" ∨ st = .str "tetrahedral") {m : ℕ} (hm0 : 0 < m) (hm : m < 2 ^ 53)
    (V : Fin (m + 1) → Fin (m + 1) → Fin (m + 1) → Fin 3 → K) (hT : Table3D a V) (hV : ∀ i j k ch, Spec.IsSingle (V i j k ch))
    (stride : ℕ) (hs : 0 < stride) (pixels : List (Spec.Pixel K)) (hp : ∀ p ∈ pixels, p.toList.length = stride) :
    ∃ (r : Res K) (G : Flt K → Flt K → Flt K → Fin 3 → K),
      lut3dProcessR ieee b (pixels.map Spec.Pixel.toList).flatten stride = .ok r ∧
      r.out = (pixels.map fun p => Spec.fins (G p.r p.g p.b) ++ p.extra).flatten ∧
      (∀ x y z ch, Spec.IsSingle (G x y z ch) ∧ (∃ i j k, V i j k ch ≤ G x y z ch) ∧ ∃ i j k, G x y z ch ≤ V i j k ch) ∧
      ∀ x y z, Spec.IsSingle x → Spec.IsSingle y → Spec.IsSingle z →
        (∀ i j k, Spec.Hits (some din) m x i → Spec.Hits (some din) m y j → Spec.Hits (some din) m z k →
          G (.fin x) (.fin y) (.fin z) = V i j k) ∧
        (st = .str "trilinear" → ∀ (ch : Fin 3) (J B : K), Spec.Smooth (fun i j k => V i j k ch) J → (∀ i j k, |V i j k ch| ≤ B) →
          ∀ (i j k : ℕ) (hi : i + 1 ≤ m) (hj : j + 1 ≤ m) (hk : k + 1 ≤ m) (X Y Z : K), X = x / Spec.fullScale (some din) →
            Y = y / Spec.fullScale (some din) → Z = z / Spec.fullScale (some din) →
            (i : K) / m ≤ X → X ≤ (i + 1 : ℕ) / m → (j : K) / m ≤ Y → Y ≤ (j + 1 : ℕ) / m → (k : K) / m ≤ Z → Z ≤ (k + 1 : ℕ) / m →
            |G (.fin x) (.fin y) (.fin z) ch - Spec.mix (X * m - i)
              (Spec.mix (Y * m - j)
                (Spec.mix (Z * m - k) (V ⟨i, by omega⟩ ⟨j, by omega⟩ ⟨k, by omega⟩ ch) (V ⟨i, by omega⟩ ⟨j, by omega⟩ ⟨k + 1, by omega⟩ ch))
                (Spec.mix (Z * m - k) (V ⟨i, by omega⟩ ⟨j + 1, by omega⟩ ⟨k, by omega⟩ ch) (V ⟨i, by omega⟩ ⟨j + 1, by omega⟩ ⟨k + 1, by omega⟩ ch)))
              (Spec.mix (Y * m - j)
                (Spec.mix (Z * m - k) (V ⟨i + 1, by omega⟩ ⟨j, by omega⟩ ⟨k, by omega⟩ ch) (V ⟨i + 1, by omega⟩ ⟨j, by omega⟩ ⟨k + 1, by omega⟩ ch))
                (Spec.mix (Z * m - k) (V ⟨i + 1, by omega⟩ ⟨j + 1, by omega⟩ ⟨k, by omega⟩ ch) (V ⟨i + 1, by omega⟩ ⟨j + 1, by omega⟩ ⟨k + 1, by omega⟩ ch)))|
              ≤ (3 * J * m + B) / 2 ^ 23 + 2 ^ (-150 : ℤ)) := by
  have hm' : (0 : K) < m := Nat.cast_pos.mpr hm0
  obtain ⟨F, hF, hmem, hlat, htri, -⟩ := cubeR_lookup hm a V hT hV st hst
  -- the smallest and the largest entry
  have hmin : ∀ ch, ∃ q : Fin (m + 1) × Fin (m + 1) × Fin (m + 1), ∀ i j k, V q.1 q.2.1 q.2.2 ch ≤ V i j k ch := fun ch => by
    obtain ⟨q, hq⟩ := Finite.exists_min fun q : Fin (m + 1) × Fin (m + 1) × Fin (m + 1) => V q.1 q.2.1 q.2.2 ch
    exact ⟨q, fun i j k => hq (i, j, k)⟩
  have hmax : ∀ ch, ∃ q : Fin (m + 1) × Fin (m + 1) × Fin (m + 1), ∀ i j k, V i j k ch ≤ V q.1 q.2.1 q.2.2 ch := fun ch => by
    obtain ⟨q, hq⟩ := Finite.exists_max fun q : Fin (m + 1) × Fin (m + 1) × Fin (m + 1) => V q.1 q.2.1 q.2.2 ch
    exact ⟨q, fun i j k => hq (i, j, k)⟩
  choose lo hlo using hmin
  choose hi hhi using hmax
  have hall := fun r g bl ch => hmem r g bl ch _ _ (hV _ _ _ ch) (hV _ _ _ ch) fun i j k => ⟨hlo ch i j k, hhi ch i j k⟩
  obtain ⟨res, hres, hout⟩ := lut3dR_node ieee b din st a h F (fun r g bl ch => single.near (F r g bl ch)) hF
    (fun r g bl ch => (hall r g bl ch).1) stride pixels hs hp
  refine ⟨res, fun x y z ch => single.near (F (ieee single (toUnitR ieee x (some din))) (ieee single (toUnitR ieee y (some din)))
    (ieee single (toUnitR ieee z (some din))) ch), hres, hout, fun x y z ch => ?_, fun x y z hx hy hz => ⟨?_, ?_⟩⟩
  · obtain ⟨h1, h2, h3⟩ := hall (ieee single (toUnitR ieee x (some din))) (ieee single (toUnitR ieee y (some din)))
      (ieee single (toUnitR ieee z (some din))) ch
    exact ⟨isSingle_near h1, ⟨_, _, _, h2⟩, ⟨_, _, _, h3⟩⟩
  · intro i j k hi hj hk
    obtain ⟨p1, e1, q1⟩ := hits_pos (some din) hm hx hi
    obtain ⟨p2, e2, q2⟩ := hits_pos (some din) hm hy hj
    obtain ⟨p3, e3, q3⟩ := hits_pos (some din) hm hz hk
    funext ch
    show single.near _ = _
    rw [e1, e2, e3, hlat _ _ _ i j k q1 q2 q3, (hV i j k ch).near]
  · intro ht ch J B hJ hB i j k hi hj hk X Y Z hX hY hZ i1 i2 j1 j2 k1 k2
    subst hX hY hZ
    obtain ⟨x0, x1⟩ := unit_of_cell hm0 hi i1 i2
    obtain ⟨y0, y1⟩ := unit_of_cell hm0 hj j1 j2
    obtain ⟨z0, z1⟩ := unit_of_cell hm0 hk k1 k2
    obtain ⟨p1, e1, q1, r1⟩ := inner_pos (some din) hm0 hm hx x0 x1
    obtain ⟨p2, e2, q2, r2⟩ := inner_pos (some din) hm0 hm hy y0 y1
    obtain ⟨p3, e3, q3, r3⟩ := inner_pos (some din) hm0 hm hz z0 z1
    have hJ0 : 0 ≤ J := (abs_nonneg _).trans (hJ i hi 0 0).1
    have key := triF_near V hV ch J B hJ hJ0 hB q1 q2 q3 ⟨mul_nonneg x0 hm'.le, mul_le_of_le_one_left hm'.le x1⟩
      ⟨mul_nonneg y0 hm'.le, mul_le_of_le_one_left hm'.le y1⟩ ⟨mul_nonneg z0 hm'.le, mul_le_of_le_one_left hm'.le z1⟩ r1 r2 r3
    show |single.near _ - _| ≤ _
    rw [e1, e2, e3, htri ht]
    have e : ∀ (f : Fin (m + 1) → K) (n : ℕ) (hn : n + 1 ≤ m) (q : K), (n : K) / m ≤ q → q ≤ (n + 1 : ℕ) / m →
        lerpRow f (q * m) = Spec.mix (q * m - n) (f ⟨n, by omega⟩) (f ⟨n + 1, by omega⟩) := by
      intro f n hn q h1 h2
      rw [lerpRow_between f n hn ((div_le_iff₀ hm').mp h1) ((le_div_iff₀ hm').mp h2), Spec.mix]
      ring
    unfold triRow at key
    simp only [e _ i hi _ i1 i2, e _ j hj _ j1 j2, e _ k hk _ k1 k2] at key
    exact key

/-- C124: tetrahedral interpolation in IEEE arithmetic.  In whichever cell of the cube the colour lies, and however ties between the
fractions are broken, the result is within `(3 J m + B) / 2^23 + 2^-150` of the exact barycentric one. -/
theorem C124_tetrahedral (b : Base K) (din : AVal) (a : Arr K) (h : PlainLut3 b din (.str "tetrahedral") a) {m : ℕ} (hm0 : 0 < m)
    (hm : m < 2 ^ 53) (V : Fin (m + 1) → Fin (m + 1) → Fin (m + 1) → Fin 3 → K) (hT : Table3D a V)
    (hV : ∀ i j k ch, Spec.IsSingle (V i j k ch)) (stride : ℕ) (hs : 0 < stride) (pixels : List (Spec.Pixel K))
    (hp : ∀ p ∈ pixels, p.toList.length = stride) :
    ∃ (r : Res K) (G : Flt K → Flt K → Flt K → Fin 3 → K),
      lut3dProcessR ieee b (pixels.map Spec.Pixel.toList).flatten stride = .ok r ∧
      r.out = (pixels.map fun p => Spec.fins (G p.r p.g p.b) ++ p.extra).flatten ∧
      ∀ x y z, Spec.IsSingle x → Spec.IsSingle y → Spec.IsSingle z →
        ∀ (ch : Fin 3) (J B : K), Spec.Smooth (fun i j k => V i j k ch) J → (∀ i j k, |V i j k ch| ≤ B) →
          ∀ (i j k : ℕ) (hi : i + 1 ≤ m) (hj : j + 1 ≤ m) (hk : k + 1 ≤ m) (X Y Z : K), X = x / Spec.fullScale (some din) →
            Y = y / Spec.fullScale (some din) → Z = z / Spec.fullScale (some din) →
            (i : K) / m ≤ X → X ≤ (i + 1 : ℕ) / m → (j : K) / m ≤ Y → Y ≤ (j + 1 : ℕ) / m → (k : K) / m ≤ Z → Z ≤ (k + 1 : ℕ) / m →
            ∀ s : Fin 3 → Fin 3, Function.Injective s →
              ![X * m - i, Y * m - j, Z * m - k] (s 1) ≤ ![X * m - i, Y * m - j, Z * m - k] (s 0) →
              ![X * m - i, Y * m - j, Z * m - k] (s 2) ≤ ![X * m - i, Y * m - j, Z * m - k] (s 1) →
              |G (.fin x) (.fin y) (.fin z) ch - Spec.tetra ![X * m - i, Y * m - j, Z * m - k]
                (fun e => V (if e 0 then ⟨i + 1, by omega⟩ else ⟨i, by omega⟩) (if e 1 then ⟨j + 1, by omega⟩ else ⟨j, by omega⟩)
                  (if e 2 then ⟨k + 1, by omega⟩ else ⟨k, by omega⟩) ch) s|
                ≤ (3 * J * m + B) / 2 ^ 23 + 2 ^ (-150 : ℤ) := by
  have hm' : (0 : K) < m := Nat.cast_pos.mpr hm0
  obtain ⟨F, hF, hmem, -, -, htet⟩ := cubeR_lookup hm a V hT hV _ (.inr rfl)
  have hmin : ∀ ch, ∃ q : Fin (m + 1) × Fin (m + 1) × Fin (m + 1), ∀ i j k, V q.1 q.2.1 q.2.2 ch ≤ V i j k ch := fun ch => by
    obtain ⟨q, hq⟩ := Finite.exists_min fun q : Fin (m + 1) × Fin (m + 1) × Fin (m + 1) => V q.1 q.2.1 q.2.2 ch
    exact ⟨q, fun i j k => hq (i, j, k)⟩
  have hmax : ∀ ch, ∃ q : Fin (m + 1) × Fin (m + 1) × Fin (m + 1), ∀ i j k, V i j k ch ≤ V q.1 q.2.1 q.2.2 ch := fun ch => by
    obtain ⟨q, hq⟩ := Finite.exists_max fun q : Fin (m + 1) × Fin (m + 1) × Fin (m + 1) => V q.1 q.2.1 q.2.2 ch
    exact ⟨q, fun i j k => hq (i, j, k)⟩
  choose lo hlo using hmin
  choose hi hhi using hmax
  have hall := fun r g bl ch => hmem r g bl ch _ _ (hV _ _ _ ch) (hV _ _ _ ch) fun i j k => ⟨hlo ch i j k, hhi ch i j k⟩
  obtain ⟨res, hres, hout⟩ := lut3dR_node ieee b din _ a h F (fun r g bl ch => single.near (F r g bl ch)) hF
    (fun r g bl ch => (hall r g bl ch).1) stride pixels hs hp
  refine ⟨res, fun x y z ch => single.near (F (ieee single (toUnitR ieee x (some din))) (ieee single (toUnitR ieee y (some din)))
    (ieee single (toUnitR ieee z (some din))) ch), hres, hout, ?_⟩
  intro x y z hx hy hz ch J B hJ hB i j k hi hj hk X Y Z hX hY hZ i1 i2 j1 j2 k1 k2 s hs h01 h12
  subst hX hY hZ
  obtain ⟨x0, x1⟩ := unit_of_cell hm0 hi i1 i2
  obtain ⟨y0, y1⟩ := unit_of_cell hm0 hj j1 j2
  obtain ⟨z0, z1⟩ := unit_of_cell hm0 hk k1 k2
  obtain ⟨p1, e1, q1, r1⟩ := inner_pos (some din) hm0 hm hx x0 x1
  obtain ⟨p2, e2, q2, r2⟩ := inner_pos (some din) hm0 hm hy y0 y1
  obtain ⟨p3, e3, q3, r3⟩ := inner_pos (some din) hm0 hm hz z0 z1
  have hJ0 : 0 ≤ J := (abs_nonneg _).trans (hJ i hi 0 0).1
  have key := tetraF_near V hV ch J B hJ hJ0 hB q1 q2 q3 ⟨mul_nonneg x0 hm'.le, mul_le_of_le_one_left hm'.le x1⟩
    ⟨mul_nonneg y0 hm'.le, mul_le_of_le_one_left hm'.le y1⟩ ⟨mul_nonneg z0 hm'.le, mul_le_of_le_one_left hm'.le z1⟩ r1 r2 r3
  show |single.near _ - _| ≤ _
  rw [e1, e2, e3, htet rfl, tetra_eq_lov _ _ hs h01 h12]
  rw [tetRow_cell _ hi hj hk ((div_le_iff₀ hm').mp i1) ((le_div_iff₀ hm').mp i2) ((div_le_iff₀ hm').mp j1) ((le_div_iff₀ hm').mp j2)
    ((div_le_iff₀ hm').mp k1) ((le_div_iff₀ hm').mp k2)] at key
  exact key

/-- The channels swapped round, as a cube of three entries per axis. -/
def rotatedCube (i j k : Fin 3) (ch : Fin 3) : ℚ := if ch = 0 then (j : ℕ) / 2 else if ch = 1 then (k : ℕ) / 2 else (i : ℕ) / 2

def rotatedLut (st : String) : Base ℚ where
  attrs := [("inBitDepth", .str "32f"), ("outBitDepth", .str "32f"), ("interpolation", .str st)]
  elements := [.array { dims := [3, 3, 3, 3], values := Spec.cube fun i j k ch => .fin (rotatedCube i j k ch) }]

theorem rotatedCube_single (i j k ch : Fin 3) : Spec.IsSingle (rotatedCube i j k ch) := by
  unfold Spec.IsSingle
  revert i j k ch
  decide +kernel

/-- C124 on both interpolations: the entry at (1/2, 0, 1) is found, and at (0.3, 0.6, nan) there are values. -/
example (st : String) (hst : st = "trilinear" ∨ st = "tetrahedral") : ∃ (r : Res ℚ) (G : Flt ℚ → Flt ℚ → Flt ℚ → Fin 3 → ℚ),
    lut3dProcessR ieee (rotatedLut st) [.fin (1 / 2), .fin (-3), .fin 7, .fin 9, .fin (3 / 10), .fin (6 / 10), .nan, .fin 8] 4 = .ok r ∧
    r.out = [.fin 0, .fin 1, .fin (1 / 2), .fin 9] ++ (Spec.fins (G (.fin (3 / 10)) (.fin (6 / 10)) .nan) ++ [.fin 8]) := by
  have hx : Spec.IsSingle (1 / 2 : ℚ) := by unfold Spec.IsSingle; decide +kernel
  have hy : Spec.IsSingle (-3 : ℚ) := by unfold Spec.IsSingle; decide +kernel
  have hz : Spec.IsSingle (7 : ℚ) := by unfold Spec.IsSingle; decide +kernel
  obtain ⟨r, G, h1, h2, _, h4⟩ := C124_cube (rotatedLut st) (.str "32f") (.str st) _
    ⟨rfl, rfl, rfl, rfl, rfl⟩ (by rcases hst with rfl | rfl <;> simp) (m := 2) (by norm_num) (by norm_num) rotatedCube
    ⟨⟨[3], rfl⟩, rfl⟩ rotatedCube_single 4 (by norm_num)
    [⟨.fin (1 / 2), .fin (-3), .fin 7, [.fin 9]⟩, ⟨.fin (3 / 10), .fin (6 / 10), .nan, [.fin 8]⟩] (by simp [Spec.Pixel.toList])
  have h5 := (h4 (1 / 2) (-3) 7 hx hy hz).1 1 0 2 (.inr (.inr ⟨rfl, 1, by norm_num, rfl, by norm_num [Fin.val_one]⟩))
    (.inl ⟨by norm_num, rfl⟩) (.inr (.inl ⟨by decide +kernel, rfl⟩))
  refine ⟨r, G, h1, ?_⟩
  rw [h2]
  simp only [List.map_cons, List.map_nil, List.flatten_cons, List.flatten_nil, List.append_nil, h5]
  have : Spec.fins (rotatedCube 1 0 2) = [.fin 0, .fin 1, .fin (1 / 2)] := by decide +kernel
  rw [this]
  rfl

/-- C124 on tetrahedra: a colour with fractions 1/2, 1/4 and 1/4 of the first cell, a tie, in either order. -/
example (s : Fin 3 → Fin 3) (hs : s = ![0, 1, 2] ∨ s = ![0, 2, 1]) : ∃ (r : Res ℚ) (G : Flt ℚ → Flt ℚ → Flt ℚ → Fin 3 → ℚ),
    lut3dProcessR ieee (rotatedLut "tetrahedral") [.fin (1 / 4), .fin (1 / 8), .fin (1 / 8)] 3 = .ok r ∧
    r.out = Spec.fins (G (.fin (1 / 4)) (.fin (1 / 8)) (.fin (1 / 8))) ∧
    |G (.fin (1 / 4)) (.fin (1 / 8)) (.fin (1 / 8)) 0 - Spec.tetra ![(1 / 2 : ℚ), 1 / 4, 1 / 4]
      (fun e => rotatedCube (if e 0 then 1 else 0) (if e 1 then 1 else 0) (if e 2 then 1 else 0) 0) s| ≤ 1 / 2 ^ 20 := by
  have h8 : Spec.IsSingle (1 / 8 : ℚ) := by unfold Spec.IsSingle; decide +kernel
  have h4 : Spec.IsSingle (1 / 4 : ℚ) := by unfold Spec.IsSingle; decide +kernel
  obtain ⟨r, G, h1, h2, h3⟩ := C124_tetrahedral (rotatedLut "tetrahedral") (.str "32f") _ ⟨rfl, rfl, rfl, rfl, rfl⟩ (m := 2) (by norm_num)
    (by norm_num) rotatedCube ⟨⟨[3], rfl⟩, rfl⟩ rotatedCube_single 3 (by norm_num)
    [⟨.fin (1 / 4), .fin (1 / 8), .fin (1 / 8), []⟩] (by simp [Spec.Pixel.toList])
  have h01 : ∀ i j : Fin 3, |rotatedCube 1 i j 0 - rotatedCube 0 i j 0| ≤ 1 / 2 ∧ |rotatedCube i 1 j 0 - rotatedCube i 0 j 0| ≤ 1 / 2 ∧
      |rotatedCube i j 1 0 - rotatedCube i j 0 0| ≤ 1 / 2 := by decide +kernel
  have h12 : ∀ i j : Fin 3, |rotatedCube 2 i j 0 - rotatedCube 1 i j 0| ≤ 1 / 2 ∧ |rotatedCube i 2 j 0 - rotatedCube i 1 j 0| ≤ 1 / 2 ∧
      |rotatedCube i j 2 0 - rotatedCube i j 1 0| ≤ 1 / 2 := by decide +kernel
  have ev : ![(1 / 4 : ℚ) * (2 : ℕ) - (0 : ℕ), 1 / 8 * (2 : ℕ) - (0 : ℕ), 1 / 8 * (2 : ℕ) - (0 : ℕ)] = ![1 / 2, 1 / 4, 1 / 4] := by
    norm_num
  have hJ : Spec.Smooth (fun i j k => rotatedCube i j k 0) (1 / 2) := by
    intro n hn i j
    obtain rfl | rfl : n = 0 ∨ n = 1 := by omega
    · exact h01 i j
    · exact h12 i j
  have key := h3 (1 / 4) (1 / 8) (1 / 8) h4 h8 h8 0 (1 / 2) 1 hJ (by decide +kernel) 0 0 0 (by norm_num) (by norm_num) (by norm_num)
    (1 / 4) (1 / 8) (1 / 8) (by decide +kernel) (by decide +kernel) (by decide +kernel) (by norm_num) (by norm_num) (by norm_num) (by norm_num)
    (by norm_num) (by norm_num) s (by rcases hs with rfl | rfl <;> decide)
    (by rw [ev]; rcases hs with rfl | rfl <;> decide +kernel) (by rw [ev]; rcases hs with rfl | rfl <;> decide +kernel)
  refine ⟨r, G, h1, by rw [h2]; simp, ?_⟩
  rw [ev] at key
  exact key.trans (by norm_num)

end CLF
