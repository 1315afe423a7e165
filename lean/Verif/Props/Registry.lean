import Verif.Spec.Registry
import Verif.Props.Nodes
import Mathlib.Data.List.TakeWhile

/-!
# The registry of LUT formats (C52)
-/

set_option linter.unusedSectionVars false

namespace CLF

variable {K : Type} [Field K] [LinearOrder K] [IsStrictOrderedRing K] [FloorRing K]

/-! ## Order -/

theorem registryRead_filter (cs : List (LutClass K)) (files : Txt → Py Txt) (path : Txt) (a : ReadArgs) :
    registryRead cs files path a =
      registryRead (cs.filter fun c => c.offers (extensionOf path) .read) files path a := by
  induction cs with
  | nil => rfl
  | cons c cs ih =>
    by_cases h : c.offers (extensionOf path) .read
    · rw [List.filter_cons, if_pos h, registryRead, registryRead, if_pos h, if_pos h, ih]
    · rw [List.filter_cons, if_neg h, registryRead, if_neg h, ih]

theorem registryWrite_filter (cs : List (LutClass K)) (ns : List (Node K)) (path : Txt)
    (d : String) (a : WriteArgs K) :
    registryWrite cs ns path d a =
      registryWrite (cs.filter fun c => c.offers (extensionOf path) (writeStyle d)) ns path d a := by
  induction cs with
  | nil => rfl
  | cons c cs ih =>
    by_cases h : c.offers (extensionOf path) (writeStyle d)
    · rw [List.filter_cons, if_pos h, registryWrite, registryWrite, if_pos h, if_pos h, ih]
    · rw [List.filter_cons, if_neg h, registryWrite, if_neg h, ih]

theorem offers_mem {c : LutClass K} {e : Txt} {k : Capability} (h : c.offers e k = true) :
    e ∈ c.extensions := by
  simp only [LutClass.offers, Bool.and_eq_true, decide_eq_true_eq] at h
  exact h.1

theorem filter_small {α : Type} (p : α → Bool) (l : List α)
    (h : l.Pairwise fun x y => ¬ (p x = true ∧ p y = true)) : (l.filter p).length ≤ 1 := by
  induction l with
  | nil => simp
  | cons x l ih =>
    rw [List.pairwise_cons] at h
    by_cases hx : p x = true
    · rw [List.filter_cons_of_pos hx, List.filter_eq_nil_iff.mpr fun y hy hy' => h.1 y hy ⟨hx, hy'⟩]
      simp
    · rw [List.filter_cons_of_neg hx]
      exact ih h.2

theorem perm_small {α : Type} {l m : List α} (h : l.Perm m) (hl : l.length ≤ 1) : l = m := by
  match l, hl with
  | [], _ => exact (List.nil_perm.mp h).symm
  | [x], _ => exact List.singleton_perm.mp h

/-- C52, for any set of formats: if no extension is shared by two format classes, the outcome
of reading and of writing does not depend on the order in which the classes are tried. -/
theorem C52_order (cs ds : List (LutClass K)) (hp : ds.Perm cs) (hu : Spec.Unshared cs)
    (path : Txt) :
    (∀ files a, registryRead ds files path a = registryRead cs files path a) ∧
      ∀ ns d a, registryWrite ds ns path d a = registryWrite cs ns path d a := by
  constructor
  · intro files a
    rw [registryRead_filter ds, registryRead_filter cs]
    rw [perm_small (hp.filter _).symm (filter_small _ _ (hu.imp fun h hh =>
      h _ ⟨offers_mem hh.1, offers_mem hh.2⟩))]
  · intro ns d a
    rw [registryWrite_filter ds, registryWrite_filter cs]
    rw [perm_small (hp.filter _).symm (filter_small _ _ (hu.imp fun h hh =>
      h _ ⟨offers_mem hh.1, offers_mem hh.2⟩))]

theorem spi_extensions (A : Arith K) (compat : ℕ) (fmt : Flt K → Txt) :
    (spiClass A compat fmt).extensions = ["spi1d".toList, "spi3d".toList, "spimtx".toList] := by
  show [lower "spi1d".toList, lower "spi3d".toList, lower "spimtx".toList] = _
  decide +kernel

theorem csp_extensions (A : Arith K) (compat : ℕ) : (cspClass A compat).extensions = ["csp".toList] := by
  show [lower "csp".toList] = _
  decide +kernel

theorem clf_extensions (A : Arith K) (compat : ℕ) : (clfClass A compat).extensions = ["clf".toList] := by
  show [lower "clf".toList] = _
  decide +kernel

theorem ctl_extensions (A : Arith K) (compat : ℕ) (fmt : Flt K → Txt) :
    (ctlClass A compat fmt).extensions = ["ctl".toList] := by
  show [lower "ctl".toList] = _
  decide +kernel

theorem shipped_unshared (A : Arith K) (compat : ℕ) (fmt : Flt K → Txt) :
    Spec.Unshared (shippedFormats A compat fmt) := by
  unfold Spec.Unshared shippedFormats
  simp only [List.pairwise_cons, List.mem_cons, List.not_mem_nil, or_false, forall_eq_or_imp, forall_eq,
    spi_extensions, csp_extensions, clf_extensions, ctl_extensions, false_imp_iff, implies_true,
    List.Pairwise.nil, and_true]
  refine ⟨⟨?_, ?_, ?_⟩, ⟨?_, ?_⟩, ?_⟩
  · rintro e ⟨rfl | rfl | rfl, h⟩ <;> revert h <;> decide
  · rintro e ⟨rfl | rfl | rfl, h⟩ <;> revert h <;> decide
  · rintro e ⟨rfl | rfl | rfl, h⟩ <;> revert h <;> decide
  · rintro e ⟨rfl, h⟩; revert h; decide
  · rintro e ⟨rfl, h⟩; revert h; decide
  · rintro e ⟨rfl, h⟩; revert h; decide

/-- C52 for the formats the package registers. -/
theorem C52_shipped (A : Arith K) (compat : ℕ) (fmt : Flt K → Txt) (cs : List (LutClass K))
    (hp : cs.Perm (shippedFormats A compat fmt)) (path : Txt) :
    (∀ files a, registryRead cs files path a =
        registryRead (shippedFormats A compat fmt) files path a) ∧
      ∀ ns d a, registryWrite cs ns path d a =
        registryWrite (shippedFormats A compat fmt) ns path d a :=
  C52_order _ _ hp (shipped_unshared A compat fmt) path

/-! ## Extensions -/

theorem takeWhile_slash (dir name : Txt) (hd : Spec.IsDir dir) (hn : '/' ∉ name) :
    baseName (dir ++ name) = name := by
  have h1 : ∀ c ∈ name.reverse, decide (c ≠ '/') = true := fun c hc => by
    rw [decide_eq_true_eq]
    rintro rfl
    exact hn (List.mem_reverse.mp hc)
  unfold baseName
  rw [List.reverse_append, List.takeWhile_append_of_pos h1]
  rcases hd with rfl | ⟨d, rfl⟩
  · simp
  · simp

theorem splitExt_spec (path e : Txt) (h : Spec.HasExtension path e) : splitExt path = '.' :: e := by
  obtain ⟨dir, name, rfl, hd, hn, ⟨c, hc, hcd⟩, he, he'⟩ := h
  have hb : baseName (dir ++ name ++ '.' :: e) = name ++ '.' :: e := by
    rw [List.append_assoc]
    refine takeWhile_slash _ _ hd ?_
    simp only [List.mem_append, List.mem_cons, not_or]
    exact ⟨hn, by decide, he'⟩
  have h1 : ∀ c ∈ e.reverse, decide (c ≠ '.') = true := fun c hc => by
    rw [decide_eq_true_eq]
    rintro rfl
    exact he (List.mem_reverse.mp hc)
  have hr : (name ++ '.' :: e).reverse = e.reverse ++ '.' :: name.reverse := by simp
  unfold splitExt
  rw [hb]
  simp only [hr]
  rw [List.dropWhile_append_of_pos h1, List.takeWhile_append_of_pos h1]
  rw [List.dropWhile_cons_of_neg (by decide), List.takeWhile_cons_of_neg (by decide)]
  have : (name.reverse.all fun c => decide (c = '.')) = false := by
    rw [List.all_eq_false]
    exact ⟨c, List.mem_reverse.mpr hc, by simpa using hcd⟩
  simp [this]

theorem splitExt_none (path : Txt) (h : Spec.NoExtension path) : splitExt path = [] := by
  obtain ⟨dir, dots, name, rfl, hd, hdots, hn, hn'⟩ := h
  have hb : baseName (dir ++ dots ++ name) = dots ++ name := by
    rw [List.append_assoc]
    refine takeWhile_slash _ _ hd ?_
    simp only [List.mem_append, not_or]
    refine ⟨fun h => ?_, hn⟩
    exact absurd (hdots _ h) (by decide)
  have h1 : ∀ c ∈ name.reverse, decide (c ≠ '.') = true := fun c hc => by
    rw [decide_eq_true_eq]
    rintro rfl
    exact hn' (List.mem_reverse.mp hc)
  unfold splitExt
  rw [hb]
  simp only [List.reverse_append]
  rw [List.dropWhile_append_of_pos h1]
  have hall : ∀ c ∈ dots.reverse, c = '.' := fun c hc => hdots c (List.mem_reverse.mp hc)
  match hr : dots.reverse with
  | [] => rfl
  | c :: r =>
    rw [hr] at hall
    have hc : c = '.' := hall c (by simp)
    subst hc
    rw [List.dropWhile_cons_of_neg (by decide)]
    have : (r.all fun c => decide (c = '.')) = true := by
      rw [List.all_eq_true]
      intro c hc
      simpa using hall c (by simp [hc])
    simp only [this, if_true]

theorem isSpace_toLower (c : Char) : isSpace c.toLower = isSpace c := by
  have key : ∀ n : Fin 128, isSpace (Char.ofNat n).toLower = isSpace (Char.ofNat n) := by decide +kernel
  by_cases h : c.toNat < 128
  · have := key ⟨c.toNat, h⟩
    rwa [show ((⟨c.toNat, h⟩ : Fin 128) : ℕ) = c.toNat from rfl, Char.ofNat_toNat] at this
  · have : c.toLower = c := by
      unfold Char.toLower
      rw [dif_neg]
      rintro ⟨_, h2⟩
      have h3 : c.toNat ≤ 90 := h2
      omega
    rw [this]

theorem lower_strip (t : Txt) : lower (strip t) = strip (lower t) := by
  have h : isSpace ∘ Char.toLower = isSpace := funext isSpace_toLower
  unfold strip lower
  rw [List.dropWhile_map, h, ← List.map_reverse, List.dropWhile_map, h, List.map_reverse]

theorem extensionOf_spec {path e : Txt} (h : Spec.Extension path e) : extensionOf path = e := by
  obtain ⟨e', h, rfl⟩ := h
  unfold extensionOf
  rw [splitExt_spec _ _ h]
  rfl

theorem extensionOf_none {path : Txt} (h : Spec.NoExtension path) : extensionOf path = [] := by
  unfold extensionOf
  rw [splitExt_none _ h]
  rfl

/-! ## Which class offers what -/

theorem offers_not {c : LutClass K} {e : Txt} (k : Capability) (h : e ∉ c.extensions) :
    c.offers e k = false := by
  unfold LutClass.offers
  simp [h]

theorem spi_offers (A : Arith K) (compat : ℕ) (fmt : Flt K → Txt) (e : Txt) (k : Capability) :
    (spiClass A compat fmt).offers e k = true ↔
      e = "spi1d".toList ∧ (k = .read ∨ k = .write1d) ∨
      e = "spi3d".toList ∧ (k = .read ∨ k = .write3d) := by
  by_cases h : e ∈ (spiClass A compat fmt).extensions
  · rw [spi_extensions] at h
    simp only [List.mem_cons, List.not_mem_nil, or_false] at h
    rcases h with rfl | rfl | rfl <;> cases k
    · exact ⟨fun _ => by decide, fun _ => rfl⟩
    · exact ⟨fun _ => by decide, fun _ => rfl⟩
    · exact ⟨fun h => absurd h Bool.false_ne_true, fun h => absurd h (by decide)⟩
    · exact ⟨fun h => absurd h Bool.false_ne_true, fun h => absurd h (by decide)⟩
    · exact ⟨fun _ => by decide, fun _ => rfl⟩
    · exact ⟨fun h => absurd h Bool.false_ne_true, fun h => absurd h (by decide)⟩
    · exact ⟨fun _ => by decide, fun _ => rfl⟩
    · exact ⟨fun h => absurd h Bool.false_ne_true, fun h => absurd h (by decide)⟩
    all_goals exact ⟨fun h => absurd h Bool.false_ne_true, fun h => absurd h (by decide)⟩
  · rw [offers_not k h]
    rw [spi_extensions] at h
    simp only [List.mem_cons, List.not_mem_nil, or_false, not_or] at h
    simp only [h.1, h.2.1, false_and, or_self, Bool.false_eq_true]

theorem csp_offers (A : Arith K) (compat : ℕ) (e : Txt) (k : Capability) :
    (cspClass A compat).offers e k = true ↔ e = "csp".toList := by
  by_cases h : e ∈ (cspClass A compat).extensions
  · rw [csp_extensions] at h
    simp only [List.mem_cons, List.not_mem_nil, or_false] at h
    subst h
    cases k <;> exact ⟨fun _ => rfl, fun _ => rfl⟩
  · rw [offers_not k h]
    rw [csp_extensions] at h
    simp only [List.mem_cons, List.not_mem_nil, or_false] at h
    simp only [h, Bool.false_eq_true]

theorem clf_offers (A : Arith K) (compat : ℕ) (e : Txt) (k : Capability) :
    (clfClass A compat).offers e k = true ↔ e = "clf".toList ∧ k = .write1d3d1d := by
  by_cases h : e ∈ (clfClass A compat).extensions
  · rw [clf_extensions] at h
    simp only [List.mem_cons, List.not_mem_nil, or_false] at h
    subst h
    cases k
    · exact ⟨fun h => absurd h Bool.false_ne_true, fun h => absurd h (by decide)⟩
    · exact ⟨fun h => absurd h Bool.false_ne_true, fun h => absurd h (by decide)⟩
    · exact ⟨fun h => absurd h Bool.false_ne_true, fun h => absurd h (by decide)⟩
    · exact ⟨fun _ => by decide, fun _ => rfl⟩
  · rw [offers_not k h]
    rw [clf_extensions] at h
    simp only [List.mem_cons, List.not_mem_nil, or_false] at h
    simp only [h, false_and, Bool.false_eq_true]

theorem ctl_offers (A : Arith K) (compat : ℕ) (fmt : Flt K → Txt) (e : Txt) (k : Capability) :
    (ctlClass A compat fmt).offers e k = true ↔ e = "ctl".toList ∧ (k = .write1d ∨ k = .write3d) := by
  by_cases h : e ∈ (ctlClass A compat fmt).extensions
  · rw [ctl_extensions] at h
    simp only [List.mem_cons, List.not_mem_nil, or_false] at h
    subst h
    cases k
    · exact ⟨fun h => absurd h Bool.false_ne_true, fun h => absurd h (by decide)⟩
    · exact ⟨fun _ => by decide, fun _ => rfl⟩
    · exact ⟨fun _ => by decide, fun _ => rfl⟩
    · exact ⟨fun h => absurd h Bool.false_ne_true, fun h => absurd h (by decide)⟩
  · rw [offers_not k h]
    rw [ctl_extensions] at h
    simp only [List.mem_cons, List.not_mem_nil, or_false] at h
    simp only [h, false_and, Bool.false_eq_true]

theorem shipped_offers (A : Arith K) (compat : ℕ) (fmt : Flt K → Txt) (e : Txt) (k : Capability) :
    (∃ c ∈ shippedFormats A compat fmt, c.offers e k = true) ↔
      ∃ s, (s, k) ∈ Spec.supported ∧ e = s.toList := by
  unfold shippedFormats Spec.supported
  simp only [List.mem_cons, List.not_mem_nil, or_false, exists_eq_or_imp, exists_eq_left, spi_offers,
    csp_offers, clf_offers, ctl_offers, Prod.mk.injEq]
  cases k <;> simp [or_and_right, exists_or, or_assoc]

theorem registryRead_none (cs : List (LutClass K)) (files : Txt → Py Txt) (path : Txt) (a : ReadArgs)
    (h : ¬ ∃ c ∈ cs, c.offers (extensionOf path) .read = true) : registryRead cs files path a = .ok none := by
  rw [registryRead_filter, List.filter_eq_nil_iff.mpr fun c hc hh => h ⟨c, hc, hh⟩]
  rfl

theorem registryWrite_none (cs : List (LutClass K)) (ns : List (Node K)) (path : Txt) (d : String)
    (a : WriteArgs K) (h : ¬ ∃ c ∈ cs, c.offers (extensionOf path) (writeStyle d) = true) :
    registryWrite cs ns path d a = .ok none := by
  rw [registryWrite_filter, List.filter_eq_nil_iff.mpr fun c hc hh => h ⟨c, hc, hh⟩]
  rfl

/-- C52: a file whose extension no format reads gives no result, whatever its content (even if
it does not exist); one that no format writes is not written. -/
theorem C52_unsupported (A : Arith K) (compat : ℕ) (fmt : Flt K → Txt) (cs : List (LutClass K))
    (hp : cs.Perm (shippedFormats A compat fmt)) (path e : Txt) (he : Spec.Extension path e) :
    ((∀ s, (s, Capability.read) ∈ Spec.supported → e ≠ s.toList) →
      ∀ files a, registryRead cs files path a = .ok none) ∧
    ∀ d, (∀ s, (s, writeStyle d) ∈ Spec.supported → e ≠ s.toList) →
      ∀ ns a, registryWrite cs ns path d a = .ok none := by
  have hext := extensionOf_spec he
  have key : ∀ k, (∀ s, (s, k) ∈ Spec.supported → e ≠ s.toList) →
      ¬ ∃ c ∈ cs, c.offers (extensionOf path) k = true := by
    intro k h hh
    obtain ⟨c, hc, hh⟩ := hh
    rw [hext] at hh
    obtain ⟨s, hs, hse⟩ := (shipped_offers A compat fmt e k).mp ⟨c, hp.mem_iff.mp hc, hh⟩
    exact h s hs hse
  exact ⟨fun h files a => registryRead_none _ _ _ _ (key _ h),
    fun d h ns a => registryWrite_none _ _ _ _ _ (key _ h)⟩

/-- C52: the same for a file without extension. -/
theorem C52_noExtension (A : Arith K) (compat : ℕ) (fmt : Flt K → Txt) (cs : List (LutClass K))
    (hp : cs.Perm (shippedFormats A compat fmt)) (path : Txt) (he : Spec.NoExtension path) :
    (∀ files a, registryRead cs files path a = .ok none) ∧
      ∀ d ns a, registryWrite cs ns path d a = .ok none := by
  have key : ∀ k, ¬ ∃ c ∈ cs, c.offers (extensionOf path) k = true := by
    rintro k ⟨c, hc, hh⟩
    rw [extensionOf_none he] at hh
    obtain ⟨s, hs, hse⟩ := (shipped_offers A compat fmt [] k).mp ⟨c, hp.mem_iff.mp hc, hh⟩
    have : ∀ p ∈ Spec.supported, ([] : Txt) ≠ p.1.toList := by decide
    exact this _ hs hse
  exact ⟨fun files a => registryRead_none _ _ _ _ (key _),
    fun d ns a => registryWrite_none _ _ _ _ _ (key _)⟩

/-- A path whose extension is not supported, and one that has none. -/
example : Spec.Extension "/luts/v1.2/show.CUBE".toList "cube".toList ∧
    (∀ s k, (s, k) ∈ Spec.supported → "cube".toList ≠ s.toList) ∧
    Spec.NoExtension "/luts/..hidden".toList :=
  ⟨⟨"CUBE".toList, ⟨"/luts/v1.2/".toList, "show".toList, by decide, .inr ⟨"/luts/v1.2".toList, by decide⟩,
      by decide, ⟨'s', by decide⟩, by decide, by decide⟩, by decide +kernel⟩,
    (fun s k h => (by decide : ∀ p ∈ Spec.supported, "cube".toList ≠ p.1.toList) _ h),
    ⟨"/luts/".toList, "..".toList, "hidden".toList, by decide, .inr ⟨"/luts".toList, by decide⟩,
      by decide, by decide, by decide⟩⟩

/-! ## Letter case -/

theorem registryRead_congr (cs : List (LutClass K)) (files : Txt → Py Txt) (p q : Txt) (a : ReadArgs)
    (he : extensionOf p = extensionOf q) (h : ∀ c ∈ cs, c.read files p a = c.read files q a) :
    registryRead cs files p a = registryRead cs files q a := by
  induction cs with
  | nil => rfl
  | cons c cs ih =>
    rw [registryRead, registryRead, he, h c (by simp), ih fun c hc => h c (by simp [hc])]

theorem registryWrite_congr (cs : List (LutClass K)) (ns : List (Node K)) (p q : Txt) (d : String)
    (a : WriteArgs K) (he : extensionOf p = extensionOf q) :
    registryWrite cs ns p d a = registryWrite cs ns q d a := by
  induction cs with
  | nil => rfl
  | cons c cs ih => rw [registryWrite, registryWrite, he, ih]

/-- C52, letter case: two paths with the same content whose extensions differ in letter case
only are read and written alike. -/
theorem C52_case (A : Arith K) (compat : ℕ) (fmt : Flt K → Txt) (cs : List (LutClass K))
    (hc : cs.Perm (shippedFormats A compat fmt)) (p q e e' : Txt) (hp : Spec.HasExtension p e)
    (hq : Spec.HasExtension q e') (he : lower e = lower e') (files : Txt → Py Txt)
    (hf : files p = files q) :
    (∀ a, registryRead cs files p a = registryRead cs files q a) ∧
      ∀ ns d a, registryWrite cs ns p d a = registryWrite cs ns q d a := by
  have hext : extensionOf p = extensionOf q := by
    rw [extensionOf_spec ⟨e, hp, rfl⟩, extensionOf_spec ⟨e', hq, rfl⟩, lower_strip, lower_strip, he]
  refine ⟨fun a => registryRead_congr _ _ _ _ _ hext ?_, fun ns d a => registryWrite_congr _ _ _ _ _ _ hext⟩
  intro c hc'
  have := hc.mem_iff.mp hc'
  unfold shippedFormats at this
  simp only [List.mem_cons, List.not_mem_nil, or_false] at this
  rcases this with rfl | rfl | rfl | rfl
  · simp only [spiClass, hext, hf]
  · simp only [cspClass, hf]
  · rfl
  · rfl

/-- The hypotheses hold for `a.b.Csp` and `look.cSP`. -/
example : Spec.HasExtension "a.b.Csp".toList "Csp".toList ∧ Spec.HasExtension "look.cSP".toList "cSP".toList ∧
    lower "Csp".toList = lower "cSP".toList :=
  ⟨⟨[], "a.b".toList, by decide, .inl rfl, by decide, ⟨'a', by decide⟩, by decide, by decide⟩,
    ⟨[], "look".toList, by decide, .inl rfl, by decide, ⟨'l', by decide⟩, by decide, by decide⟩,
    by decide +kernel⟩

/-- Another order of the shipped formats. -/
example (A : Arith K) (compat : ℕ) (fmt : Flt K → Txt) :
    [ctlClass A compat fmt, clfClass A compat, cspClass A compat, spiClass A compat fmt].Perm
      (shippedFormats A compat fmt) :=
  List.reverse_perm (shippedFormats A compat fmt)

/-! ## What is done for a supported extension -/

theorem readOne (c : LutClass K) (rest : List (LutClass K)) (files : Txt → Py Txt) (path : Txt)
    (a : ReadArgs) (h : c.offers (extensionOf path) .read = true)
    (hr : ∀ d ∈ rest, ¬ d.offers (extensionOf path) .read = true) :
    registryRead (c :: rest) files path a = (c.read files path a).map Spec.found := by
  have : registryRead rest files path a = .ok none :=
    registryRead_none _ _ _ _ fun ⟨d, hd, hh⟩ => hr d hd hh
  rw [registryRead, if_pos h, this]
  rcases c.read files path a with e | ns
  · rfl
  · cases ns <;> rfl

theorem readSkip (c : LutClass K) (rest : List (LutClass K)) (files : Txt → Py Txt) (path : Txt)
    (a : ReadArgs) (h : ¬ c.offers (extensionOf path) .read = true) :
    registryRead (c :: rest) files path a = registryRead rest files path a := by
  rw [registryRead, if_neg h]

/-- C52: which reader is used. -/
theorem C52_read (A : Arith K) (compat : ℕ) (fmt : Flt K → Txt) (cs : List (LutClass K))
    (hp : cs.Perm (shippedFormats A compat fmt)) (path e : Txt) (he : Spec.Extension path e)
    (files : Txt → Py Txt) (t : Txt) (ht : files path = .ok t) (a : ReadArgs) :
    (e = "spi1d".toList → registryRead cs files path a =
      (readSpi1d t a.inverse a.interpolation a.useIndexMaps a.useHalfDomain).map Spec.found) ∧
    (e = "spi3d".toList → registryRead cs files path a =
      (readSpi3d t a.inverse a.interpolation).map Spec.found) ∧
    (e = "csp".toList → registryRead cs files path a =
      (readCsp t a.inverse a.interpolation).map Spec.found) := by
  have hext := extensionOf_spec he
  rw [(C52_shipped A compat fmt cs hp path).1]
  unfold shippedFormats
  have hrest : e = "spi1d".toList ∨ e = "spi3d".toList → ∀ d ∈ [cspClass A compat, clfClass A compat,
      ctlClass A compat fmt], ¬ d.offers (extensionOf path) .read = true := by
    intro h d hd
    simp only [List.mem_cons, List.not_mem_nil, or_false] at hd
    rcases hd with rfl | rfl | rfl
    · rw [csp_offers, hext]
      rcases h with rfl | rfl <;> decide
    · rw [clf_offers]
      simp
    · rw [ctl_offers]
      simp
  refine ⟨fun h => ?_, fun h => ?_, fun h => ?_⟩
  · rw [readOne _ _ _ _ _ ((spi_offers _ _ _ _ _).mpr (.inl ⟨by rw [hext, h], .inl rfl⟩))
      (hrest (.inl h))]
    simp only [spiClass, hext, h, ht, if_true, py_ok_bind]
  · rw [readOne _ _ _ _ _ ((spi_offers _ _ _ _ _).mpr (.inr ⟨by rw [hext, h], .inl rfl⟩))
      (hrest (.inr h))]
    have : ¬ ("spi3d".toList = "spi1d".toList) := by decide
    simp only [spiClass, hext, h, ht, if_true, py_ok_bind, this, if_false]
  · rw [readSkip _ _ _ _ _ (by rw [spi_offers, hext, h]; decide),
      readOne _ _ _ _ _ ((csp_offers _ _ _ _).mpr (by rw [hext, h]))]
    · simp only [cspClass, ht, py_ok_bind]
    · intro d hd
      simp only [List.mem_cons, List.not_mem_nil, or_false] at hd
      rcases hd with rfl | rfl
      · rw [clf_offers]
        simp
      · rw [ctl_offers]
        simp

theorem writeOne (c : LutClass K) (cs : List (LutClass K)) (hc : c ∈ cs) (hu : Spec.Unshared cs)
    (ns : List (Node K)) (path : Txt) (d : String) (a : WriteArgs K)
    (h : c.offers (extensionOf path) (writeStyle d) = true) :
    registryWrite cs ns path d a = c.write ns (writeStyle d) a := by
  obtain ⟨l, r, rfl⟩ := List.append_of_mem hc
  have hp : (c :: (l ++ r)).Perm (l ++ c :: r) := List.perm_middle.symm
  rw [← (C52_order _ _ hp hu path).2]
  have hu' : Spec.Unshared (c :: (l ++ r)) := by
    unfold Spec.Unshared at hu ⊢
    exact (hp.pairwise_iff (fun h e he => h e ⟨he.2, he.1⟩)).mpr hu
  unfold Spec.Unshared at hu'
  rw [List.pairwise_cons] at hu'
  have : registryWrite (l ++ r) ns path d a = .ok none :=
    registryWrite_none _ _ _ _ _ fun ⟨e, he, hh⟩ => hu'.1 e he _ ⟨offers_mem h, offers_mem hh⟩
  rw [registryWrite, if_pos h, this]
  rcases c.write ns (writeStyle d) a with e | w
  · rfl
  · cases w <;> rfl

/-- C52: which writer is used.  The numbers after the samples are the sizes and the range of
the lookup table. -/
theorem C52_write (A : Arith K) (compat : ℕ) (fmt : Flt K → Txt) (cs : List (LutClass K))
    (hp : cs.Perm (shippedFormats A compat fmt)) (path e : Txt) (he : Spec.Extension path e)
    (ns : List (Node K)) (a : WriteArgs K) :
    (e = "spi1d".toList → registryWrite cs ns path "1D" a = do
      let s ← sample1D A compat ns a.res1d a.lo a.hi
      let t ← writeSpi1d fmt a.lo a.hi s a.res1d 3 3
      pure (some (.text t))) ∧
    (e = "csp".toList → registryWrite cs ns path "1D" a = do
      let s ← sample1D A compat ns a.res1d a.lo a.hi
      let t ← writeCsp1d a.lo a.hi s a.res1d 3 3
      pure (some (.text t))) ∧
    (e = "ctl".toList → registryWrite cs ns path "1D" a = do
      let s ← sample1D A compat ns a.res1d a.lo a.hi
      let t ← writeCtl1d fmt a.lo a.hi s a.res1d 3 3
      pure (some (.text t))) ∧
    (e = "spi3d".toList → registryWrite cs ns path "3D" a = do
      let s ← sample3D A compat ns (a.res3d, a.res3d, a.res3d) a.lo a.hi
      let t ← writeSpi3d fmt s (a.res3d, a.res3d, a.res3d)
      pure (some (.text t))) ∧
    (e = "csp".toList → registryWrite cs ns path "3D" a = do
      let s ← sample3D A compat ns (a.res3d, a.res3d, a.res3d) a.lo a.hi
      let t ← writeCsp3d a.lo a.hi s (a.res3d, a.res3d, a.res3d)
      pure (some (.text t))) ∧
    (e = "ctl".toList → registryWrite cs ns path "3D" a = do
      let s ← sample3D A compat ns (a.res3d, a.res3d, a.res3d) a.lo a.hi
      let t ← writeCtl3d a.lo a.hi s (a.res3d, a.res3d, a.res3d)
      pure (some (.text t))) ∧
    (e = "csp".toList → registryWrite cs ns path "1D_3D_1D" a = do
      let s ← sample1D3D1D A compat ns a.resIn (a.resCube, a.resCube, a.resCube) a.resOut a.shIn a.shOut
      let t ← writeCsp1d3dOpt s.samplesIn a.resIn s.inLo s.inHi s.cube (a.resCube, a.resCube, a.resCube)
      pure (some (.text t))) ∧
    (e = "clf".toList → registryWrite cs ns path "1D_3D_1D" a = do
      let s ← sample1D3D1D A compat ns a.resIn (a.resCube, a.resCube, a.resCube) a.resOut a.shIn a.shOut
      let f ← writeClf compat s a.resIn (a.resCube, a.resCube, a.resCube)
      pure (some (.clf f))) := by
  have hext := extensionOf_spec he
  rw [(C52_shipped A compat fmt cs hp path).2, (C52_shipped A compat fmt cs hp path).2,
    (C52_shipped A compat fmt cs hp path).2]
  have hu := shipped_unshared A compat fmt
  refine ⟨fun h => ?_, fun h => ?_, fun h => ?_, fun h => ?_, fun h => ?_, fun h => ?_, fun h => ?_,
    fun h => ?_⟩
  · rw [writeOne (spiClass A compat fmt) _ (by simp [shippedFormats]) hu _ _ _ _
      ((spi_offers _ _ _ _ _).mpr (.inl ⟨by rw [hext, h], .inr rfl⟩))]
    rfl
  · rw [writeOne (cspClass A compat) _ (by simp [shippedFormats]) hu _ _ _ _
      ((csp_offers _ _ _ _).mpr (by rw [hext, h]))]
    rfl
  · rw [writeOne (ctlClass A compat fmt) _ (by simp [shippedFormats]) hu _ _ _ _
      ((ctl_offers _ _ _ _ _).mpr ⟨by rw [hext, h], .inl rfl⟩)]
    rfl
  · rw [writeOne (spiClass A compat fmt) _ (by simp [shippedFormats]) hu _ _ _ _
      ((spi_offers _ _ _ _ _).mpr (.inr ⟨by rw [hext, h], .inr rfl⟩))]
    rfl
  · rw [writeOne (cspClass A compat) _ (by simp [shippedFormats]) hu _ _ _ _
      ((csp_offers _ _ _ _).mpr (by rw [hext, h]))]
    rfl
  · rw [writeOne (ctlClass A compat fmt) _ (by simp [shippedFormats]) hu _ _ _ _
      ((ctl_offers _ _ _ _ _).mpr ⟨by rw [hext, h], .inr rfl⟩)]
    rfl
  · rw [writeOne (cspClass A compat) _ (by simp [shippedFormats]) hu _ _ _ _
      ((csp_offers _ _ _ _).mpr (by rw [hext, h]))]
    rfl
  · rw [writeOne (clfClass A compat) _ (by simp [shippedFormats]) hu _ _ _ _
      ((clf_offers _ _ _ _).mpr ⟨by rw [hext, h], rfl⟩)]
    rfl

end CLF
