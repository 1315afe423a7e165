import Verif.Props.IndexMap
import Verif.Props.HalfDomain
import Verif.Props.HalfPack
import Verif.Props.Nodes

/-!
# C114: evaluating an index map with its cache
-/

set_option linter.unusedSectionVars false

namespace CLF

variable {K : Type} [Field K] [LinearOrder K] [IsStrictOrderedRing K] [FloorRing K]

/-- What the cache holds for a half code. -/
def cacheEntry (f : K → K) (x : Flt K) : Flt K :=
  match x with
  | .fin v => .fin (f v)
  | .inf s => .inf s
  | .nan => .nan

theorem cache_table (m : IndexMap K) (f : K → K) (hf : ∀ x, m.process (.fin x) = .ok (.fin (f x))) :
    ∃ a, m.cache = .ok a ∧ HalfTable (c := 0) a (fun n _ => cacheEntry f (half.decode (n : ℕ)))
      (fun n _ => f (Spec.halfValue n)) := by
  have hproc : ∀ x : Flt K, m.processRaw x = .ok (cacheEntry f x) := by
    intro x
    cases x with
    | fin v => exact hf v
    | inf s => rfl
    | nan => rfl
  have h : ∀ N : ℕ, (List.range N).mapM (fun i => m.processRaw (half.decode i)) =
      .ok (List.ofFn fun k : Fin N => cacheEntry f (half.decode (k : ℕ) : Flt K)) := by
    intro N
    apply range_mapM_ofFn N
    intro i
    exact hproc _
  have e1 := h 65536
  unfold IndexMap.cache
  rw [e1]
  refine ⟨_, rfl, ⟨[], rfl⟩, ?_, .inl rfl, ?_⟩
  · dsimp only
    have hr : ∀ N : ℕ, (List.ofFn fun k : Fin N => cacheEntry f (half.decode (k : ℕ) : Flt K)) =
        Spec.rowMajor fun (n : Fin N) (_ : Fin 1) => cacheEntry f (half.decode (n : ℕ) : Flt K) := by
      intro N
      unfold Spec.rowMajor
      rw [← List.map_id (List.flatten _)]
      simp only [List.ofFn_succ, List.ofFn_zero, List.map_id]
      rw [List.flatten_eq_flatMap]
      simp [List.ofFn_eq_map, List.flatMap_map]
      exact List.map_eq_flatMap ..
    exact hr 65536
  · intro n hn j
    rw [half_decode n hn]
    rfl

/-- Between neighbouring halves there is no half. -/
theorem no_half_between (i j n : ℕ) (h : Spec.halfNeighbours i j) (hn : Spec.halfFinite n)
    (h1 : min (Spec.halfValue i : K) (Spec.halfValue j) < Spec.halfValue n)
    (h2 : (Spec.halfValue n : K) < max (Spec.halfValue i) (Spec.halfValue j)) : False := by
  have mono : ∀ a b : ℕ, a < 31744 → b < 31744 → ((Spec.halfValue a : K) < Spec.halfValue b ↔ a < b) := by
    intro a b ha hb
    rw [← half_magVal a ha, ← half_magVal b hb]
    exact (Fmt.magVal_strictMono half).lt_iff_lt
  have pos : ∀ a : ℕ, a < 31744 → (0 : K) ≤ Spec.halfValue a := by
    intro a ha
    rw [← half_magVal a ha]
    exact Fmt.magVal_nonneg half a
  obtain ⟨hi, hj, hs, hij, hji⟩ := h
  rw [halfFinite_iff] at hi hj hn
  -- every code as sign and magnitude
  have key : ∀ a b c : ℕ, a < 31744 → b < 31744 → c < 31744 → a ≤ b + 1 → b ≤ a + 1 →
      min (Spec.halfValue a : K) (Spec.halfValue b) < Spec.halfValue c →
      (Spec.halfValue c : K) < max (Spec.halfValue a) (Spec.halfValue b) → False := by
    intro a b c ha hb hc hab hba g1 g2
    rw [min_lt_iff, mono a c ha hc, mono b c hb hc] at g1
    rw [lt_max_iff, mono c a hc ha, mono c b hc hb] at g2
    omega
  rcases hi with hi | ⟨hi1, hi2⟩
  · have hj' : j < 31744 := by omega
    rcases hn with hn | ⟨hn1, hn2⟩
    · exact key i j n hi hj' hn hij hji h1 h2
    · obtain ⟨c, rfl⟩ : ∃ c, n = 32768 + c := ⟨n - 32768, by omega⟩
      rw [halfValue_neg c (by omega)] at h1 h2
      have := pos c (by omega)
      have h3 := le_min (pos i hi) (pos j hj')
      linarith
  · obtain ⟨a, rfl⟩ : ∃ a, i = 32768 + a := ⟨i - 32768, by omega⟩
    obtain ⟨b, rfl⟩ : ∃ b, j = 32768 + b := ⟨j - 32768, by omega⟩
    have ha : a < 31744 := by omega
    have hb : b < 31744 := by omega
    rw [halfValue_neg a (by omega), halfValue_neg b (by omega)] at h1 h2
    rcases hn with hn | ⟨hn1, hn2⟩
    · have h3 := max_le (neg_nonpos.mpr (pos a ha)) (neg_nonpos.mpr (pos b hb))
      have := pos n hn
      linarith
    · obtain ⟨c, rfl⟩ : ∃ c, n = 32768 + c := ⟨n - 32768, by omega⟩
      rw [halfValue_neg c (by omega)] at h1 h2
      rw [min_neg_neg] at h1
      rw [max_neg_neg] at h2
      exact key a b c ha hb (by omega) (by omega) (by omega) (by linarith) (by linarith)

/-- Where an index map has no input strictly between two positions, it is a straight line
between them. -/
theorem map_straight (dim : ℕ) (xs ys : List K) (hne : xs ≠ []) (hl : xs.length = ys.length)
    (hs : xs.Pairwise (· < ·)) (lo hi : K) (hlh : lo ≤ hi) (hk : ∀ x ∈ xs, ¬ (lo < x ∧ x < hi)) :
    ∃ a b : K, ∀ t, lo ≤ t → t ≤ hi →
      IndexMap.process ⟨dim, xs.map .fin, ys.map .fin⟩ (.fin t) = .ok (.fin (a + b * t)) := by
  have h0 : 0 < xs.length := List.length_pos_iff.mpr hne
  by_cases hlow : hi ≤ xs[0]
  · exact ⟨ys[0], 0, fun t _ h2 => by
      rw [(C13_saturates dim xs ys h0 hl hs t).1 (h2.trans hlow)]; simp⟩
  · by_cases hhigh : xs[xs.length - 1] ≤ lo
    · exact ⟨ys[ys.length - 1], 0, fun t h1 _ => by
        rw [(C13_saturates dim xs ys h0 hl hs t).2 (hhigh.trans h1)]; simp⟩
    · push Not at hlow hhigh
      have first : xs[0] ≤ lo := by
        by_contra h
        exact hk _ (List.getElem_mem h0) ⟨not_le.mp h, hlow⟩
      obtain ⟨k, hk1, hk2, hk3⟩ : ∃ (k : ℕ) (hk : k + 1 < xs.length), xs[k] ≤ lo ∧ lo < xs[k + 1] := by
        by_contra hcon
        push Not at hcon
        have : ∀ k (h : k < xs.length), xs[k] ≤ lo := by
          intro k
          induction k with
          | zero => intro _; exact first
          | succ k ih => intro h; exact hcon k h (ih (by omega))
        exact absurd (this (xs.length - 1) (by omega)) (not_le.mpr hhigh)
      have up : hi ≤ xs[k + 1] := by
        by_contra h
        exact hk _ (List.getElem_mem hk1) ⟨hk3, not_le.mp h⟩
      refine ⟨ys[k] - xs[k] * ((ys[k + 1] - ys[k]) / (xs[k + 1] - xs[k])),
        (ys[k + 1] - ys[k]) / (xs[k + 1] - xs[k]), fun t h1 h2 => ?_⟩
      rw [C13_interpolates dim xs ys hl hs k hk1 t (hk2.trans h1) (h2.trans up)]
      unfold Spec.affine
      congr 2
      ring

/-- The values of an index map. -/
theorem map_function (dim : ℕ) (xs ys : List K) (hne : xs ≠ []) (hl : xs.length = ys.length) :
    ∃ f : K → K, ∀ x, IndexMap.process ⟨dim, xs.map .fin, ys.map .fin⟩ (.fin x) = .ok (.fin (f x)) := by
  choose f hf using fun x => C12_total_bounded dim xs ys hne hl x
  exact ⟨f, fun x => (hf x).1⟩

theorem cached_lookup (m : IndexMap K) (a : Arr K) (h : m.cache = .ok a) (x : Flt K) :
    m.processCached x = a.lookup1DHalfDomain x 0 := by
  unfold IndexMap.processCached
  rw [h]
  rfl

/-- C114: at every half-float value, the cache gives what the map gives. -/
theorem C114_halves (dim : ℕ) (xs ys : List K) (hne : xs ≠ []) (hl : xs.length = ys.length) (n : ℕ)
    (hn : Spec.halfFinite n) :
    IndexMap.processCached ⟨dim, xs.map .fin, ys.map .fin⟩ (.fin (Spec.halfValue n)) =
      IndexMap.process ⟨dim, xs.map .fin, ys.map .fin⟩ (.fin (Spec.halfValue n)) := by
  obtain ⟨f, hf⟩ := map_function dim xs ys hne hl
  obtain ⟨a, ha, ht⟩ := cache_table _ f hf
  rw [cached_lookup _ a ha, hf]
  by_cases h0 : n = 32768
  · subst h0
    have e : (Spec.halfValue 32768 : K) = Spec.halfValue 0 := by
      have := halfValue_neg (K := K) 0 (by omega)
      rw [show (32768 : ℕ) = 32768 + 0 from rfl, this]
      simp [Spec.halfValue]
    rw [e]
    exact C18_exact a _ _ ht 0 (by unfold Spec.halfFinite; omega) (by omega) 0
  · exact C18_exact a _ _ ht n hn h0 0

/-- C114: infinities and NaN pass the cache as they pass the map. -/
theorem C114_nonfinite (dim : ℕ) (xs ys : List K) (hne : xs ≠ []) (hl : xs.length = ys.length) (x : Flt K)
    (hx : ∀ v, x ≠ .fin v) :
    IndexMap.processCached ⟨dim, xs.map .fin, ys.map .fin⟩ x = .ok x ∧
      IndexMap.process ⟨dim, xs.map .fin, ys.map .fin⟩ x = .ok x := by
  obtain ⟨f, hf⟩ := map_function dim xs ys hne hl
  obtain ⟨a, ha, ht⟩ := cache_table _ f hf
  rw [cached_lookup _ a ha]
  obtain ⟨h1, h2, h3, -⟩ := C18_nonfinite a _ _ ht 0
  cases x with
  | fin v => exact absurd rfl (hx v)
  | inf s =>
    have e : ∀ s : Bool, (half.decode (if s then 64512 else 31744) : Flt K) = .inf s := by
      intro s
      cases s
      · have := half_decode_inf (K := K) false
        exact this
      · have := half_decode_inf (K := K) true
        exact this
    cases s
    · exact ⟨h1.trans (by have := e false; simp only [Bool.false_eq_true, if_false] at this
                          show Except.ok (cacheEntry f (half.decode 31744)) = _
                          rw [this]; rfl), rfl⟩
    · exact ⟨h2.trans (by have := e true; simp only [if_true] at this
                          show Except.ok (cacheEntry f (half.decode 64512)) = _
                          rw [this]; rfl), rfl⟩
  | nan =>
    exact ⟨h3.trans (by show Except.ok (cacheEntry f (half.decode 31745)) = _
                        rw [half_decode_nan_of 31745 (by norm_num)]; rfl), rfl⟩

/-- C114, as far as it holds: between the finite halves, the cache gives what the map gives if
the inputs of the map are halves themselves.  Missing: other maps, where the cache is a straight
line between neighbouring halves (`C114_line`), and larger values (`C114_false`). -/
theorem C114_partial (dim : ℕ) (xs ys : List K) (hne : xs ≠ []) (hl : xs.length = ys.length)
    (hs : xs.Pairwise (· < ·)) (hh : ∀ x ∈ xs, ∃ n, Spec.halfFinite n ∧ x = Spec.halfValue n) (x : K)
    (hx : |x| ≤ 65504) :
    IndexMap.processCached ⟨dim, xs.map .fin, ys.map .fin⟩ (.fin x) =
      IndexMap.process ⟨dim, xs.map .fin, ys.map .fin⟩ (.fin x) := by
  obtain ⟨f, hf⟩ := map_function dim xs ys hne hl
  obtain ⟨a, ha, ht⟩ := cache_table _ f hf
  rw [cached_lookup _ a ha, hf]
  obtain ⟨i, j, w, hn, -, h0, h1, hlk, hv⟩ := C19_adjacent a _ _ ht x (lt_of_le_of_lt hx (by norm_num))
  rw [hlk 0]
  have hx' := hv hx
  obtain ⟨p, q, hline⟩ := map_straight dim xs ys hne hl hs (min (Spec.halfValue i : K) (Spec.halfValue j))
    (max (Spec.halfValue i) (Spec.halfValue j)) min_le_max (by
      intro y hy ⟨g1, g2⟩
      obtain ⟨n, hnf, rfl⟩ := hh y hy
      exact no_half_between i j n hn hnf g1 g2)
  have hfl : ∀ t, min (Spec.halfValue i : K) (Spec.halfValue j) ≤ t →
      t ≤ max (Spec.halfValue i : K) (Spec.halfValue j) → f t = p + q * t := by
    intro t g1 g2
    have := hline t g1 g2
    rw [hf t] at this
    simpa using this
  have b1 : min (Spec.halfValue i : K) (Spec.halfValue j) ≤ x := by
    rw [hx']
    have e1 := min_le_left (Spec.halfValue i : K) (Spec.halfValue j)
    have e2 := min_le_right (Spec.halfValue i : K) (Spec.halfValue j)
    nlinarith
  have b2 : x ≤ max (Spec.halfValue i : K) (Spec.halfValue j) := by
    rw [hx']
    have e1 := le_max_left (Spec.halfValue i : K) (Spec.halfValue j)
    have e2 := le_max_right (Spec.halfValue i : K) (Spec.halfValue j)
    nlinarith
  rw [hfl x b1 b2, hfl _ (min_le_left _ _) (le_max_left _ _), hfl _ (min_le_right _ _) (le_max_right _ _)]
  generalize (Spec.halfValue i : K) = u at hx' ⊢
  generalize (Spec.halfValue j : K) = v at hx' ⊢
  have e : (1 - w) * (p + q * u) + w * (p + q * v) = p + q * x := by
    rw [hx']
    ring
  rw [e]

/-- C114: for every map, the cache gives a value on the straight line between the values of the
map at neighbouring halves around the position. -/
theorem C114_line (dim : ℕ) (xs ys : List K) (hne : xs ≠ []) (hl : xs.length = ys.length) (x : K)
    (hx : |x| ≤ 65504) : ∃ (i j : ℕ) (w u v : K), Spec.halfNeighbours i j ∧ 0 ≤ w ∧ w ≤ 1 ∧
      x = (1 - w) * Spec.halfValue i + w * Spec.halfValue j ∧
      IndexMap.process ⟨dim, xs.map .fin, ys.map .fin⟩ (.fin (Spec.halfValue i)) = .ok (.fin u) ∧
      IndexMap.process ⟨dim, xs.map .fin, ys.map .fin⟩ (.fin (Spec.halfValue j)) = .ok (.fin v) ∧
      IndexMap.processCached ⟨dim, xs.map .fin, ys.map .fin⟩ (.fin x) = .ok (.fin ((1 - w) * u + w * v)) := by
  obtain ⟨f, hf⟩ := map_function dim xs ys hne hl
  obtain ⟨a, ha, ht⟩ := cache_table _ f hf
  obtain ⟨i, j, w, hn, -, h0, h1, hlk, hv⟩ := C19_adjacent a _ _ ht x (lt_of_le_of_lt hx (by norm_num))
  exact ⟨i, j, w, _, _, hn, h0, h1, hv hx, hf _, hf _, by rw [cached_lookup _ a ha]; exact hlk 0⟩

/-- C114 is false: from 65520 on, where numbers round to the infinite half, the cache gives an
infinity, for every map. -/
theorem C114_false (dim : ℕ) (xs ys : List K) (hne : xs ≠ []) (hl : xs.length = ys.length) (x : K)
    (hx : 65520 ≤ |x|) :
    IndexMap.processCached ⟨dim, xs.map .fin, ys.map .fin⟩ (.fin x) = .ok (.inf (decide (x < 0))) ∧
      IndexMap.processCached ⟨dim, xs.map .fin, ys.map .fin⟩ (.fin x) ≠
        IndexMap.process ⟨dim, xs.map .fin, ys.map .fin⟩ (.fin x) := by
  obtain ⟨f, hf⟩ := map_function dim xs ys hne hl
  obtain ⟨a, ha, ht⟩ := cache_table _ f hf
  have key : IndexMap.processCached ⟨dim, xs.map .fin, ys.map .fin⟩ (.fin x) =
      .ok (.inf (decide (x < 0))) := by
    obtain ⟨-, -, -, h4, h5⟩ := C18_nonfinite a _ _ ht 0
    rw [cached_lookup _ a ha]
    rcases le_abs.mp hx with h | h
    · have hd : decide (x < 0) = false := by
        rw [decide_eq_false_iff_not]
        linarith
      rw [hd, h4 x h]
      show Except.ok (cacheEntry f (half.decode 31744)) = _
      have := half_decode_inf (K := K) false
      rw [show (half.decode 31744 : Flt K) = .inf false from this]
      rfl
    · have hd : decide (x < 0) = true := by
        rw [decide_eq_true_eq]
        linarith
      rw [hd, h5 x (by linarith)]
      show Except.ok (cacheEntry f (half.decode 64512)) = _
      have := half_decode_inf (K := K) true
      rw [show (half.decode 64512 : Flt K) = .inf true from this]
      rfl
  exact ⟨key, by rw [key, hf]; simp⟩

/-- A map whose inputs are halves, and a position between two halves. -/
example : ([0, 1 / 4, 1] : List ℚ).Pairwise (· < ·) ∧
    (∀ x ∈ ([0, 1 / 4, 1] : List ℚ), ∃ n, Spec.halfFinite n ∧ x = Spec.halfValue n) ∧
    |(1 / 3 : ℚ)| ≤ 65504 ∧
    IndexMap.process ⟨3, ([0, 1 / 4, 1] : List ℚ).map .fin, ([0, 10, 4] : List ℚ).map .fin⟩ (.fin (1 / 3)) =
      .ok (.fin (28 / 3)) := by
  refine ⟨by decide +kernel, ?_, by decide +kernel, by decide +kernel⟩
  intro x hx
  simp only [List.mem_cons, List.not_mem_nil, or_false] at hx
  rcases hx with rfl | rfl | rfl
  · exact ⟨0, by unfold Spec.halfFinite; omega, by simp [Spec.halfValue]⟩
  · exact ⟨13312, by unfold Spec.halfFinite; omega, by norm_num [Spec.halfValue]⟩
  · exact ⟨15360, by unfold Spec.halfFinite; omega, by norm_num [Spec.halfValue]⟩

end CLF
