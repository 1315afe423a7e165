import Verif.Model.Ctl
import Verif.Props.CspPrelut

/-! # Properties of written CTL programs -/

set_option linter.unusedSectionVars false

namespace CLF

variable {K : Type} [Field K] [LinearOrder K] [IsStrictOrderedRing K] [FloorRing K]

theorem joinWith_snoc (sep : Txt) (l : List Txt) (x : Txt) :
    joinWith sep (l ++ [x]) = (l.map fun w => w ++ sep).flatten ++ x := by
  induction l with
  | nil => rfl
  | cons a l ih =>
    have : joinWith sep (a :: (l ++ [x])) = a ++ sep ++ joinWith sep (l ++ [x]) := by
      cases l <;> rfl
    rw [List.cons_append, this, ih]
    simp

/-- Entries followed by separators, the last one by something else. -/
theorem flatten_sep (n : ℕ) (F : ℕ → Txt) (sep last : Txt) :
    ((List.range (n + 1)).map fun i => F i ++ (if i + 1 ≠ n + 1 then sep else last)).flatten
      = joinWith sep ((List.range (n + 1)).map F) ++ last := by
  rw [List.range_succ, List.map_append, List.map_append, List.map_singleton, List.map_singleton,
    joinWith_snoc, List.flatten_append, if_neg (by simp), List.flatten_singleton, List.map_map,
    List.append_assoc]
  congr 2
  apply List.map_congr_left
  intro i hi
  have : i < n := by simpa using hi
  simp only [Function.comp]
  rw [if_pos (by omega)]

/-! ### C62 -/

theorem ctlTable_eq (fmt : Flt K → Txt) (name : Txt) {n c : ℕ} (V : Fin (n + 1) → Fin (c + 1) → Flt K) :
    ctlTable fmt name (Spec.rowMajor V) (n + 1) (c + 1)
      = .ok ("const float ".toList ++ name ++ "[] = {\n".toList ++
          (joinWith ",\n".toList (List.ofFn fun i => fmt (V i 0)) ++ ['\n']) ++ "};\n\n".toList) := by
  unfold ctlTable
  have h : (List.range (n + 1)).mapM (fun (i : ℕ) => do
      let v ← pyGet (Spec.rowMajor V) (i * (c + 1))
      pure (fmt v ++ (if i + 1 ≠ n + 1 then [','] else []) ++ ['\n']))
      = .ok ((List.range (n + 1)).map fun (i : ℕ) =>
        fmt (V (Fin.ofNat (n + 1) i) 0) ++ (if i + 1 ≠ n + 1 then ",\n".toList else "\n".toList)) := by
    apply py_mapM_ok
    intro i hi
    have hi : i < n + 1 := by simpa using hi
    have hg := rowMajor_get V i 0 hi (by omega)
    rw [Nat.zero_add] at hg
    rw [hg, py_ok_bind, py_pure]
    have hf : Fin.ofNat (n + 1) i = ⟨i, hi⟩ := by ext; simp [Nat.mod_eq_of_lt hi]
    rw [hf, List.append_assoc]
    congr 2
    split <;> rfl
  rw [h, py_ok_bind, py_pure, flatten_sep, map_range_ofFn]
  have hf : (fun i : Fin (n + 1) => fmt (V (Fin.ofNat (n + 1) (i : ℕ)) 0)) = fun i => fmt (V i 0) := by
    funext i
    congr 2
    ext
    simp [Nat.mod_eq_of_lt i.2]
  rw [hf]
  rfl

theorem ctlTable_infix (name : Txt) (es : List Txt) (pre post : Txt) :
    Spec.CtlTable (pre ++ ("const float ".toList ++ name ++ "[] = {\n".toList ++
      (joinWith ",\n".toList es ++ ['\n']) ++ "};\n\n".toList) ++ post) name es := by
  refine ⟨pre, "\n\n".toList ++ post, ?_⟩
  simp only [List.append_assoc]
  rfl

theorem ctlTables_in (a b c d e : Txt) : b <:+: a ++ b ++ c ++ d ++ e :=
  (((List.suffix_append a b).isInfix.trans (List.prefix_append _ c).isInfix).trans
    (List.prefix_append _ d).isInfix).trans (List.prefix_append _ e).isInfix

/-- What is written: with two or three components, the table of every channel holds the
samples of channel 0. -/
theorem C62_actual_partial (fmt : Flt K → Txt) (lo hi : Flt K) {n c : ℕ}
    (V : Fin (n + 1) → Fin (c + 1) → Flt K) (components : ℕ)
    (hc : 1 < min (min 3 components) (c + 1)) :
    ∃ t, writeCtl1d fmt lo hi (Spec.rowMajor V) (n + 1) (c + 1) components = .ok t ∧
      ∀ j < min (min 3 components) (c + 1),
        Spec.CtlTable t ("lut".toList ++ showNat j) (List.ofFn fun i => fmt (V i 0)) := by
  unfold writeCtl1d
  dsimp only
  rw [if_neg (by omega)]
  have h : (List.range (min (min 3 components) (c + 1))).mapM (fun j =>
      ctlTable fmt ("lut".toList ++ showNat j) (Spec.rowMajor V) (n + 1) (c + 1))
      = .ok ((List.range (min (min 3 components) (c + 1))).map fun j =>
        "const float ".toList ++ ("lut".toList ++ showNat j) ++ "[] = {\n".toList ++
          (joinWith ",\n".toList (List.ofFn fun i => fmt (V i 0)) ++ ['\n']) ++ "};\n\n".toList) :=
    py_mapM_ok _ _ _ fun j _ => ctlTable_eq fmt _ V
  rw [h]
  refine ⟨_, rfl, fun j hj => ?_⟩
  have hin : Spec.CtlTable ((List.range (min (min 3 components) (c + 1))).map fun j =>
      "const float ".toList ++ ("lut".toList ++ showNat j) ++ "[] = {\n".toList ++
        (joinWith ",\n".toList (List.ofFn fun i => fmt (V i 0)) ++ ['\n']) ++ "};\n\n".toList).flatten
      ("lut".toList ++ showNat j) (List.ofFn fun i => fmt (V i 0)) := by
    obtain ⟨l1, l2, hl⟩ := List.append_of_mem (List.mem_range.mpr hj)
    simp only [hl, List.map_append, List.map_cons, List.flatten_append, List.flatten_cons]
    rw [← List.append_assoc]
    exact ctlTable_infix _ _ _ _
  exact List.IsInfix.trans hin (ctlTables_in _ _ _ _ _)

/-- C62, as far as it holds: tables whose columns are all equal (grey samples).  Missing:
tables with different columns (`C62_false`). -/
theorem C62_partial (fmt : Flt K → Txt) (lo hi : Flt K) {n c : ℕ}
    (V : Fin (n + 1) → Fin (c + 1) → Flt K) (hV : ∀ i j, V i j = V i 0) (components : ℕ)
    (hc : 1 < min (min 3 components) (c + 1)) :
    ∃ t, writeCtl1d fmt lo hi (Spec.rowMajor V) (n + 1) (c + 1) components = .ok t ∧
      ∀ j : Fin (c + 1), (j : ℕ) < min 3 components →
        Spec.CtlTable t ("lut".toList ++ showNat j) (List.ofFn fun i => fmt (V i j)) := by
  obtain ⟨t, h1, h2⟩ := C62_actual_partial fmt lo hi V components hc
  refine ⟨t, h1, fun j hj => ?_⟩
  simp only [hV _ j]
  exact h2 j (by omega)

/-- C62 for a single component: the only table holds the samples of the only channel. -/
theorem C62_single (fmt : Flt K → Txt) (lo hi : Flt K) {n c : ℕ}
    (V : Fin (n + 1) → Fin (c + 1) → Flt K) (components : ℕ)
    (hc : min (min 3 components) (c + 1) = 1) :
    ∃ t, writeCtl1d fmt lo hi (Spec.rowMajor V) (n + 1) (c + 1) components = .ok t ∧
      Spec.CtlTable t "lut".toList (List.ofFn fun i => fmt (V i 0)) := by
  unfold writeCtl1d
  dsimp only
  rw [if_pos hc, ctlTable_eq]
  refine ⟨_, rfl, ?_⟩
  have := ctlTable_infix "lut".toList (List.ofFn fun i => fmt (V i 0)) [] []
  rw [List.nil_append, List.append_nil] at this
  exact List.IsInfix.trans this (ctlTables_in _ _ _ _ _)

example : 1 < min (min 3 3) (2 + 1) ∧ min (min 3 1) (2 + 1) = 1 ∧
    ∀ i j, (fun (i : Fin 3) (_ : Fin 3) => Flt.fin ((i : ℕ) : ℚ)) i j
      = (fun (i : Fin 3) (_ : Fin 3) => Flt.fin ((i : ℕ) : ℚ)) i 0 := by
  refine ⟨by decide, by decide, fun _ _ => rfl⟩

/-- How Python prints a float. -/
def pyStr (x : Flt ℚ) : Txt := str12 (SFlt.ofFlt x)

/-- C62 is false: the table of the second channel holds the samples of the first, and not
its own. -/
theorem C62_false : ∃ t, writeCtl1d pyStr (.fin 0) (.fin 1)
      (Spec.rowMajor ![![.fin 0, .fin 1, .fin 2], ![.fin 3, .fin 4, .fin 5]]) 2 3 = .ok t ∧
    Spec.CtlTable t "lut1".toList ["0.0".toList, "3.0".toList] ∧
    ¬ Spec.CtlTable t "lut1".toList ["1.0".toList, "4.0".toList] := by
  unfold Spec.CtlTable
  refine ⟨_, rfl, ?_, ?_⟩
  · decide +kernel
  · decide +kernel

/-! ### C82 -/

theorem squeeze_append (a b : Txt) : Spec.squeeze (a ++ b) = Spec.squeeze a ++ Spec.squeeze b :=
  List.filter_append ..

theorem squeeze_word {w : Txt} (h : NoSpace w) : Spec.squeeze w = w := by
  unfold Spec.squeeze
  rw [List.filter_eq_self]
  intro c hc
  rw [h c hc]
  rfl

theorem squeeze_flatten (l : List Txt) : Spec.squeeze l.flatten = (l.map Spec.squeeze).flatten := by
  unfold Spec.squeeze
  rw [List.filter_flatten]

theorem squeeze_join (sep : Txt) (l : List Txt) (hl : ∀ w ∈ l, NoSpace w) :
    Spec.squeeze (joinWith sep l) = joinWith (Spec.squeeze sep) l := by
  match l with
  | [] => rfl
  | [w] => exact squeeze_word (hl w (by simp))
  | w :: v :: ws =>
    show Spec.squeeze (w ++ sep ++ joinWith sep (v :: ws)) = w ++ Spec.squeeze sep ++ joinWith _ (v :: ws)
    rw [squeeze_append, squeeze_append, squeeze_word (hl w (by simp)),
      squeeze_join sep (v :: ws) fun u hu => hl u (by simp [hu])]

/-- The loops that write an aggregate, up to white space. -/
theorem squeeze_loop (n : ℕ) (F : ℕ → Txt) (between last : String)
    (h1 : Spec.squeeze between.toList = [',']) (h2 : Spec.squeeze last.toList = []) :
    Spec.squeeze ((List.range (n + 1)).map fun i => F i ++ ctlSep i (n + 1) between last).flatten
      = joinWith [','] (List.ofFn fun i : Fin (n + 1) => Spec.squeeze (F i)) := by
  rw [squeeze_flatten, List.map_map]
  have e : (Spec.squeeze ∘ fun i => F i ++ ctlSep i (n + 1) between last)
      = fun i => Spec.squeeze (F i) ++ (if i + 1 ≠ n + 1 then [','] else []) := by
    funext i
    simp only [Function.comp, squeeze_append, ctlSep]
    split
    · rw [h1]
    · rw [h2]
  rw [e, flatten_sep, List.append_nil, map_range_ofFn]

theorem ctlCube_eq (a b c : ℕ) (F : ℕ → ℕ → ℕ → Fin 3 → Flt K) :
    ctlCube (Spec.cubeOf a b c fun r g bl => List.ofFn (F r g bl)) (a, b, c)
      = .ok ("{\n".toList ++ ((List.range a).map fun r => ("\t{\n".toList ++
          ((List.range b).map fun g => ("\t\t{ ".toList ++
            ((List.range c).map fun bl => (['{'] ++ joinWith ", ".toList
              ((List.ofFn (F r g bl)).map fun x => show6 (.ofFlt x)) ++ ['}']) ++
              ctlSep bl c ",\n\t\t  " "\n ").flatten ++ ['}']) ++ ctlSep g b ",\n" "\n").flatten ++
          "\t}".toList) ++ ctlSep r a ", " "\n").flatten ++ "};\n".toList) := by
  unfold ctlCube
  rw [py_mapM_ok _ (fun r => ("\t{\n".toList ++
      ((List.range b).map fun g => ("\t\t{ ".toList ++
        ((List.range c).map fun bl => (['{'] ++ joinWith ", ".toList
          ((List.ofFn (F r g bl)).map fun x => show6 (.ofFlt x)) ++ ['}']) ++
          ctlSep bl c ",\n\t\t  " "\n ").flatten ++ ['}']) ++ ctlSep g b ",\n" "\n").flatten ++
      "\t}".toList) ++ ctlSep r a ", " "\n")]
  · rfl
  intro r hr
  have hr : r < a := by simpa using hr
  rw [py_mapM_ok _ (fun g => ("\t\t{ ".toList ++
      ((List.range c).map fun bl => (['{'] ++ joinWith ", ".toList
        ((List.ofFn (F r g bl)).map fun x => show6 (.ofFlt x)) ++ ['}']) ++
        ctlSep bl c ",\n\t\t  " "\n ").flatten ++ ['}']) ++ ctlSep g b ",\n" "\n")]
  · rfl
  intro g hg
  have hg : g < b := by simpa using hg
  rw [py_mapM_ok _ (fun bl => (['{'] ++ joinWith ", ".toList
        ((List.ofFn (F r g bl)).map fun x => show6 (.ofFlt x)) ++ ['}']) ++
        ctlSep bl c ",\n\t\t  " "\n ")]
  · rfl
  intro bl hb
  have hb : bl < c := by simpa using hb
  unfold Spec.cubeOf
  simp only [pyGet_range_map, hr, hg, hb, if_true, py_ok_bind, py_pure]

theorem ctlCube_squeeze (a b c : ℕ) (F : ℕ → ℕ → ℕ → Fin 3 → Flt K) :
    ∃ q, ctlCube (Spec.cubeOf (a + 1) (b + 1) (c + 1) fun r g bl => List.ofFn (F r g bl))
        (a + 1, b + 1, c + 1) = .ok q ∧
      Spec.squeeze q = Spec.aggregate (List.ofFn fun r : Fin (a + 1) => Spec.aggregate (List.ofFn fun
        g : Fin (b + 1) => Spec.aggregate (List.ofFn fun bl : Fin (c + 1) =>
          Spec.aggregate (List.ofFn fun ch => show6 (.ofFlt (F r g bl ch)))))) ++ [';'] := by
  refine ⟨_, ctlCube_eq (a + 1) (b + 1) (c + 1) F, ?_⟩
  have hcell : ∀ r g bl, Spec.squeeze (['{'] ++ joinWith ", ".toList
      ((List.ofFn (F r g bl)).map fun x => show6 (.ofFlt x)) ++ ['}'])
      = Spec.aggregate (List.ofFn fun ch => show6 (.ofFlt (F r g bl ch))) := by
    intro r g bl
    rw [squeeze_append, squeeze_append, squeeze_join _ _ (by
      intro w hw
      obtain ⟨x, _, rfl⟩ := List.mem_map.mp hw
      exact show6_noSpace _), List.map_ofFn]
    rfl
  have s6 : Spec.squeeze "\t\t{ ".toList = ['{'] := by decide
  have s7 : Spec.squeeze ['}'] = ['}'] := by decide
  have s8 : Spec.squeeze "\t{\n".toList = ['{'] := by decide
  have s9 : Spec.squeeze "\t}".toList = ['}'] := by decide
  have s10 : Spec.squeeze "{\n".toList = ['{'] := by decide
  have s11 : Spec.squeeze "};\n".toList = ['}'] ++ [';'] := by decide
  have hrow : ∀ r g, Spec.squeeze ("\t\t{ ".toList ++
      ((List.range (c + 1)).map fun bl => (['{'] ++ joinWith ", ".toList
        ((List.ofFn (F r g bl)).map fun x => show6 (.ofFlt x)) ++ ['}']) ++
        ctlSep bl (c + 1) ",\n\t\t  " "\n ").flatten ++ ['}'])
      = Spec.aggregate (List.ofFn fun bl : Fin (c + 1) =>
        Spec.aggregate (List.ofFn fun ch => show6 (.ofFlt (F r g bl ch)))) := by
    intro r g
    rw [squeeze_append, squeeze_append, s6, s7, squeeze_loop _ _ _ _ (by decide) (by decide)]
    simp only [hcell]
    rfl
  have hplane : ∀ r, Spec.squeeze ("\t{\n".toList ++
      ((List.range (b + 1)).map fun g => ("\t\t{ ".toList ++
        ((List.range (c + 1)).map fun bl => (['{'] ++ joinWith ", ".toList
          ((List.ofFn (F r g bl)).map fun x => show6 (.ofFlt x)) ++ ['}']) ++
          ctlSep bl (c + 1) ",\n\t\t  " "\n ").flatten ++ ['}']) ++
        ctlSep g (b + 1) ",\n" "\n").flatten ++ "\t}".toList)
      = Spec.aggregate (List.ofFn fun g : Fin (b + 1) => Spec.aggregate (List.ofFn fun bl : Fin (c + 1) =>
        Spec.aggregate (List.ofFn fun ch => show6 (.ofFlt (F r g bl ch))))) := by
    intro r
    rw [squeeze_append, squeeze_append, s8, s9, squeeze_loop _ _ _ _ (by decide) (by decide)]
    simp only [hrow]
    rfl
  rw [squeeze_append, squeeze_append, s10, s11, squeeze_loop _ _ _ _ (by decide) (by decide)]
  simp only [hplane]
  unfold Spec.aggregate
  simp only [List.append_assoc]

theorem ctlCube_in (h s a n1 b n2 c n3 d cu e t u v : Txt) :
    a ++ n1 ++ b ++ n2 ++ b ++ n3 ++ c ++ cu ++ d
      <:+: h ++ (s ++ a) ++ n1 ++ b ++ n2 ++ b ++ n3 ++ c ++ (cu ++ d) ++ e ++ t ++ u ++ v :=
  ⟨h ++ s, e ++ t ++ u ++ v, by simp only [List.append_assoc]⟩

/-- C82: the CTL program written for a cube declares, up to white space, the cube indexed
red, green, blue, with every sample rounded to six decimals. -/
theorem C82_ctl (lo hi : Flt K) (a b c : ℕ) (F : ℕ → ℕ → ℕ → Fin 3 → Flt K) :
    ∃ (t : Txt) (W : ℕ → ℕ → ℕ → Fin 3 → Txt),
      writeCtl3d lo hi (Spec.cubeOf (a + 1) (b + 1) (c + 1) fun r g bl => List.ofFn (F r g bl))
        (a + 1, b + 1, c + 1) = .ok t ∧
      Spec.CtlCube (a := a + 1) (b := b + 1) (c := c + 1) t (fun r g bl => W r g bl) ∧
      ∀ r g bl ch, ∃ y, readFlt (W r g bl ch) = .ok y ∧ Spec.Near6 (F r g bl ch) y := by
  obtain ⟨q, h1, h2⟩ := ctlCube_squeeze a b c F
  unfold writeCtl3d
  rw [h1, py_ok_bind, py_pure]
  refine ⟨_, fun r g bl ch => show6 (.ofFlt (F r g bl ch)), rfl, ?_, fun r g bl ch =>
    ⟨_, readFlt_show6 _, back6_near _⟩⟩
  unfold Spec.CtlCube
  have s12 : ∀ n, Spec.squeeze (showNat n) = showNat n := fun n =>
    squeeze_word (isDig_showNat n).noSpace
  have s13 : Spec.squeeze ";\n\nconst float cube[".toList = [';'] ++ "constfloatcube[".toList := by
    decide
  have s14 : Spec.squeeze "][".toList = "][".toList := by decide
  have s15 : Spec.squeeze "][3] = \n".toList = "][3]=".toList := by decide
  simp only [squeeze_append, s12, s13, s14, s15, h2]
  exact ctlCube_in _ _ _ _ _ _ _ _ _ _ _ _ _ _

/-- A two by one by two cube with values that need rounding. -/
example : (writeCtl3d (.fin 0) (.fin 1) (Spec.cubeOf 2 1 2 fun r g b =>
      List.ofFn ![.fin ((r : ℚ) / 3), .fin (g : ℚ), .fin (b : ℚ)]) (2, 1, 2)).map (fun t =>
    decide (("{{{{0.000000,0.000000,0.000000},{0.000000,0.000000,1.000000}}}," ++
      "{{{0.333333,0.000000,0.000000},{0.333333,0.000000,1.000000}}}};").toList <:+: Spec.squeeze t))
    = .ok true := by
  decide +kernel

end CLF
