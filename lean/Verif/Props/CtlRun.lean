import Verif.Props.Ctl

/-!
# C110: running written CTL programs
-/

set_option linter.unusedSectionVars false

namespace CLF

variable {K : Type} [Field K] [LinearOrder K] [IsStrictOrderedRing K] [FloorRing K]

/-! ### Nine decimals -/

/-- `y` is `x` rounded to nine decimals: at most half a unit of the ninth decimal away, and
`x` itself if that has no more than nine decimals. -/
def Spec.Near9 : Flt K → Flt K → Prop
  | .fin x, .fin y => |y - x| ≤ 1 / 2 / 10 ^ 9 ∧ ((∃ n : ℤ, x = n / 10 ^ 9) → y = x)
  | .inf a, .inf b => a = b
  | .nan, .nan => True
  | _, _ => False

/-- Value printed by `"%3.9f"`. -/
def decn : SFlt K → SFlt K
  | .fin neg m => .fin neg (((Fmt.rne (m * 10 ^ 9)).toNat : K) / 10 ^ 9)
  | x => x

theorem fixed9_fin (neg : Bool) (m : K) : fixed9 (.fin neg m) = signTxt neg ++
    (showNat ((Fmt.rne (m * 10 ^ 9)).toNat / 10 ^ 9) ++
      '.' :: showFixed 10 9 ((Fmt.rne (m * 10 ^ 9)).toNat % 10 ^ 9)) := by
  simp [fixed9]

theorem fixed9_noSpace (x : SFlt K) : NoSpace (fixed9 x) := by
  cases x with
  | nan => show NoSpace "nan".toList; intro c hc; revert c; decide
  | inf neg =>
    refine (signTxt_noSpace neg).append ?_
    intro c hc; revert c; decide
  | fin neg m =>
    rw [fixed9_fin]
    exact (signTxt_noSpace neg).append ((isDig_showNat _).noSpace.append
      (NoSpace.cons (by decide) (isDig_showFixed _ _).noSpace))

theorem fixed9_ne (x : SFlt K) : fixed9 x ≠ [] := by
  cases x with
  | nan => simp [fixed9]
  | inf neg => simp [fixed9]
  | fin neg m => simp [fixed9_fin]

theorem parseFloat_fixed9 (x : SFlt K) : parseFloat (fixed9 x) = .ok (decn x) := by
  cases x with
  | nan => exact parseFloat_nan
  | inf neg => exact parseFloat_inf neg
  | fin neg m =>
    rw [fixed9_fin, parseFloat_dec neg _ _ _
      ((isDig_showNat _).noSpace.append (NoSpace.cons (by decide) (isDig_showFixed _ _).noSpace))
      (((isDig_showNat _).head (showNat_ne _)).append _)
      (parseDecimal_point _ _ (isDig_showNat _) (isDig_showFixed _ _) (showNat_ne _))]
    rw [numT_append, numT_showNat, numT_showFixed, showFixed_length, Nat.mod_mod, decn]
    have : (Fmt.rne (m * 10 ^ 9)).toNat / 10 ^ 9 * 10 ^ 9 + (Fmt.rne (m * 10 ^ 9)).toNat % 10 ^ 9
        = (Fmt.rne (m * 10 ^ 9)).toNat := by
      rw [Nat.mul_comm]; exact Nat.div_add_mod _ _
    rw [this]
    congr 2
    rw [div_eq_mul_inv, zpow_neg, zpow_natCast]

/-- What comes back of a number printed by `"%3.9f"`. -/
def back9 (x : Flt K) : Flt K := (decn (.ofFlt x)).toFlt

theorem readFlt_fixed9 (x : Flt K) : readFlt (fixed9 (.ofFlt x)) = .ok (back9 x) := by
  unfold readFlt
  rw [parseFloat_fixed9]
  rfl

theorem back9_near (x : Flt K) : Spec.Near9 x (back9 x) := by
  cases x with
  | nan => trivial
  | inf neg => exact rfl
  | fin x =>
    show |(if decide (x < 0) = true then -(((Fmt.rne (|x| * 10 ^ 9)).toNat : K) / 10 ^ 9) else
        ((Fmt.rne (|x| * 10 ^ 9)).toNat : K) / 10 ^ 9) - x| ≤ _ ∧ ((∃ n : ℤ, x = n / 10 ^ 9) →
      (if decide (x < 0) = true then -(((Fmt.rne (|x| * 10 ^ 9)).toNat : K) / 10 ^ 9) else
        ((Fmt.rne (|x| * 10 ^ 9)).toNat : K) / 10 ^ 9) = x)
    have h0 : (0 : K) ≤ |x| * 10 ^ 9 := by positivity
    have hr : 0 ≤ Fmt.rne (|x| * 10 ^ 9) := Fmt.le_rne (by simpa using h0)
    have hc : ((Fmt.rne (|x| * 10 ^ 9)).toNat : K) = (Fmt.rne (|x| * 10 ^ 9) : K) := by
      have := Int.toNat_of_nonneg hr
      exact_mod_cast congrArg (Int.cast (R := K)) this
    have hp : (0 : K) < 10 ^ 9 := by positivity
    rw [hc]
    have hs : (if decide (x < 0) = true then -((Fmt.rne (|x| * 10 ^ 9) : K) / 10 ^ 9) else
        (Fmt.rne (|x| * 10 ^ 9) : K) / 10 ^ 9) - x
        = (if x < 0 then -1 else 1) * ((Fmt.rne (|x| * 10 ^ 9) - |x| * 10 ^ 9) / 10 ^ 9) := by
      by_cases hx : x < 0
      · simp only [hx, decide_true, if_true, abs_of_neg hx]; field_simp; ring
      · simp only [hx, decide_false, Bool.false_eq_true, if_false, abs_of_nonneg (not_lt.mp hx)]
        field_simp
    constructor
    · rw [hs, abs_mul]
      have : |(if x < 0 then -1 else 1 : K)| = 1 := by split <;> simp
      rw [this, one_mul, abs_div, abs_of_pos hp]
      exact div_le_div_of_nonneg_right (Fmt.rne_near _) hp.le
    · rintro ⟨n, hn⟩
      have he : |x| * 10 ^ 9 = ((|n| : ℤ) : K) := by
        rw [hn, abs_div, abs_of_pos hp, div_mul_cancel₀ _ hp.ne', Int.cast_abs]
      rw [← sub_eq_zero, hs, he, rne_intCast, sub_self, zero_div, mul_zero]

/-! ### A small interpreter -/

/-- The values of the variables of a program. -/
abbrev Spec.Vars (α : Type) := List (Txt × α)

/-- The value of a variable. -/
def Spec.Vars.get {α : Type} (e : Spec.Vars α) (x : Txt) : Option α :=
  match e with
  | [] => none
  | (y, a) :: e => if y = x then some a else Spec.Vars.get e x

/-- The parts between the separators. -/
def Spec.parts (sep : Char) : Txt → List Txt
  | [] => [[]]
  | c :: t =>
    if c = sep then [] :: Spec.parts sep t
    else match Spec.parts sep t with
      | [] => [[c]]
      | w :: ws => (c :: w) :: ws

/-- The functions of the language: what `lookup1D` makes of the table, the limits and the
value, and `lookup3D_f` of the cube, the limits and the colour. -/
structure Spec.Lookups (α : Type) where
  one : Txt → Txt → Txt → α → α
  three : Txt → Txt → Txt → α × α × α → α × α × α

/-- An expression: a variable, or a call of `lookup1D`. -/
inductive Spec.Expr
  | var (x : Txt)
  | one (table lo hi x : Txt)
deriving DecidableEq

/-- A statement. -/
inductive Spec.Stmt
  | assign (x : Txt) (e : Spec.Expr)
  | three (cube lo hi x y z x' y' z' : Txt)
  | unknown
deriving DecidableEq

/-- The text without a beginning. -/
def Spec.after (start t : Txt) : Option Txt := if start <+: t then some (t.drop start.length) else none

/-- The statement in a line, without white space and semicolon. -/
def Spec.statement (t : Txt) : Spec.Stmt :=
  match Spec.after "lookup3D_f(".toList t with
  | some args => match Spec.parts ',' (args.takeWhile (· ≠ ')')) with
    | [cube, lo, hi, x, y, z, x', y', z'] => .three cube lo hi x y z x' y' z'
    | _ => .unknown
  | none => match Spec.parts '=' t with
    | [x, y] =>
      let x := (Spec.after "float".toList x).getD x
      match Spec.after "lookup1D(".toList y with
      | none => .assign x (.var y)
      | some args => match Spec.parts ',' (args.takeWhile (· ≠ ')')) with
        | [table, lo, hi, z] => .assign x (.one table lo hi z)
        | _ => .unknown
    | _ => .unknown

/-- The statements of a block: its lines without comments and white space. -/
def Spec.statements (block : Txt) : List Spec.Stmt :=
  (((splitLines block).map Spec.squeeze).filter fun l => l ≠ [] ∧ ¬ "//".toList <+: l).map
    fun l => Spec.statement (l.takeWhile (· ≠ ';'))

/-- Run a statement. -/
def Spec.exec {α : Type} (L : Spec.Lookups α) (e : Spec.Vars α) : Spec.Stmt → Option (Spec.Vars α)
  | .assign x (.var y) => (e.get y).map fun a => (x, a) :: e
  | .assign x (.one table lo hi y) => (e.get y).map fun a => (x, L.one table lo hi a) :: e
  | .three cube lo hi x y z x' y' z' =>
    match e.get x, e.get y, e.get z with
    | some a, some b, some c =>
      let v := L.three cube lo hi (a, b, c)
      some ((z', v.2.2) :: (y', v.2.1) :: (x', v.1) :: e)
    | _, _, _ => none
  | .unknown => none

/-- Run a block. -/
def Spec.run {α : Type} (L : Spec.Lookups α) (block : Txt) (e : Spec.Vars α) : Option (Spec.Vars α) :=
  (Spec.statements block).foldlM (Spec.exec L) e

/-- The function `main` of a program: its head. -/
def Spec.signature : Txt :=
  ("void main\n(\n  input varying float rIn,\n  input varying float gIn,\n" ++
   "  input varying float bIn,\n  input varying float aIn,\n  output varying float rOut,\n" ++
   "  output varying float gOut,\n  output varying float bOut,\n  output varying float aOut\n)\n{\n").toList

/-- The program gives the outputs `r', g', b', a'` for the inputs `r, g, b, a`: the text ends
with the function `main`, and its block assigns the outputs. -/
def Spec.Gives {α : Type} (L : Spec.Lookups α) (text : Txt) (r g b a r' g' b' a' : α) : Prop :=
  ∃ pre block e, text = pre ++ Spec.signature ++ block ++ "}\n".toList ∧
    Spec.run L block [("rIn".toList, r), ("gIn".toList, g), ("bIn".toList, b), ("aIn".toList, a)] = some e ∧
    e.get "rOut".toList = some r' ∧ e.get "gOut".toList = some g' ∧ e.get "bOut".toList = some b' ∧
    e.get "aOut".toList = some a'

/-- The block of a program around its lookups. -/
def ctlBlock (lookups : Txt) : Txt :=
  ("  float r = rIn;\n  float g = gIn;\n  float b = bIn;\n\n  // Apply LUT\n").toList ++ lookups ++
    "\n  rOut = r;\n  gOut = g;\n  bOut = b;\n  aOut = aIn;\n".toList

theorem ctlMain_eq : ctlMain = Spec.signature ++
      "  float r = rIn;\n  float g = gIn;\n  float b = bIn;\n\n  // Apply LUT\n".toList := by
  decide +kernel

theorem ctlEnd_eq : ctlEnd = "\n  rOut = r;\n  gOut = g;\n  bOut = b;\n  aOut = aIn;\n".toList ++ "}\n".toList := by
  decide +kernel

/-- The statements around the lookups. -/
def ctlStatements (calls : List Spec.Stmt) : List Spec.Stmt :=
  [.assign ['r'] (.var "rIn".toList), .assign ['g'] (.var "gIn".toList), .assign ['b'] (.var "bIn".toList)]
    ++ calls ++ [.assign "rOut".toList (.var ['r']), .assign "gOut".toList (.var ['g']),
      .assign "bOut".toList (.var ['b']), .assign "aOut".toList (.var "aIn".toList)]

theorem glue {head main end' lookups sig a b c : Txt} (h1 : main = sig ++ a) (h2 : end' = b ++ c) :
    head ++ main ++ lookups ++ end' = head ++ sig ++ (a ++ lookups ++ b) ++ c := by
  subst h1 h2
  simp only [List.append_assoc]

theorem ctl_gives {α : Type} (L : Spec.Lookups α) (r g b a : α) (head lookups : Txt)
    (calls : List Spec.Stmt) (hl : Spec.statements (ctlBlock lookups) = ctlStatements calls)
    (e : Spec.Vars α) (r' g' b' a' : α)
    (he : (ctlStatements calls).foldlM (Spec.exec L) [("rIn".toList, r), ("gIn".toList, g), ("bIn".toList, b),
      ("aIn".toList, a)] = some e)
    (h1 : e.get "rOut".toList = some r') (h2 : e.get "gOut".toList = some g')
    (h3 : e.get "bOut".toList = some b') (h4 : e.get "aOut".toList = some a') :
    Spec.Gives L (head ++ ctlMain ++ lookups ++ ctlEnd) r g b a r' g' b' a' := by
  refine ⟨head, ctlBlock lookups, e, ?_, ?_, h1, h2, h3, h4⟩
  · exact glue ctlMain_eq ctlEnd_eq
  · unfold Spec.run
    rw [hl, he]

/-- The lookups of a program. -/
def ctlLookups (components : ℕ) : Txt :=
  if components = 1 then ctlLookup "r" "lut" ++ ctlLookup "g" "lut" ++ ctlLookup "b" "lut"
  else if components = 3 then ctlLookup "r" "lut0" ++ ctlLookup "g" "lut1" ++ ctlLookup "b" "lut2"
  else []

theorem ctl1d_shape {fmt : Flt K → Txt} {lo hi : Flt K} {data : List (Flt K)}
    {entries channels components : ℕ} {t : Txt}
    (h : writeCtl1d fmt lo hi data entries channels components = .ok t) :
    ∃ head, t = head ++ ctlMain ++ ctlLookups (min (min 3 components) channels) ++ ctlEnd := by
  unfold writeCtl1d at h
  dsimp only at h
  split at h
  · rename_i h1
    obtain ⟨tables, -, h⟩ := py_bind_eq_ok.mp h
    injection h with h
    rw [ctlLookups, if_pos h1]
    exact ⟨_, h.symm⟩
  · rename_i h1
    obtain ⟨ts, -, h⟩ := py_bind_eq_ok.mp h
    injection h with h
    rw [ctlLookups, if_neg h1]
    exact ⟨_, h.symm⟩

/-- C110, three components: the program sends every channel through the table of its own, and
leaves alpha as it is.  Missing in the property: two components. -/
theorem C110_three_partial {α : Type} (L : Spec.Lookups α) (r g b a : α) (fmt : Flt K → Txt) (lo hi : Flt K)
    (data : List (Flt K)) (entries channels components : ℕ) (hc : min (min 3 components) channels = 3)
    (t : Txt) (h : writeCtl1d fmt lo hi data entries channels components = .ok t) :
    Spec.Gives L t r g b a (L.one "lut0".toList "min1d".toList "max1d".toList r)
      (L.one "lut1".toList "min1d".toList "max1d".toList g)
      (L.one "lut2".toList "min1d".toList "max1d".toList b) a := by
  obtain ⟨head, rfl⟩ := ctl1d_shape h
  rw [hc]
  refine ctl_gives L r g b a _ _ [.assign ['r'] (.one "lut0".toList "min1d".toList "max1d".toList ['r']),
    .assign ['g'] (.one "lut1".toList "min1d".toList "max1d".toList ['g']),
    .assign ['b'] (.one "lut2".toList "min1d".toList "max1d".toList ['b'])] (by decide +kernel) _ _ _ _ _
    rfl rfl rfl rfl rfl

/-- C110, one component: the program sends every channel through the only table. -/
theorem C110_one_partial {α : Type} (L : Spec.Lookups α) (r g b a : α) (fmt : Flt K → Txt) (lo hi : Flt K)
    (data : List (Flt K)) (entries channels components : ℕ) (hc : min (min 3 components) channels = 1)
    (t : Txt) (h : writeCtl1d fmt lo hi data entries channels components = .ok t) :
    Spec.Gives L t r g b a (L.one "lut".toList "min1d".toList "max1d".toList r)
      (L.one "lut".toList "min1d".toList "max1d".toList g)
      (L.one "lut".toList "min1d".toList "max1d".toList b) a := by
  obtain ⟨head, rfl⟩ := ctl1d_shape h
  rw [hc]
  refine ctl_gives L r g b a _ _ [.assign ['r'] (.one "lut".toList "min1d".toList "max1d".toList ['r']),
    .assign ['g'] (.one "lut".toList "min1d".toList "max1d".toList ['g']),
    .assign ['b'] (.one "lut".toList "min1d".toList "max1d".toList ['b'])] (by decide +kernel) _ _ _ _ _
    rfl rfl rfl rfl rfl

/-- C110 is false for two components: the tables are written, and the program gives every
colour back as it is. -/
theorem C110_false {α : Type} (L : Spec.Lookups α) (r g b a : α) (fmt : Flt K → Txt) (lo hi : Flt K)
    (data : List (Flt K)) (entries channels components : ℕ) (hc : min (min 3 components) channels = 2)
    (t : Txt) (h : writeCtl1d fmt lo hi data entries channels components = .ok t) :
    Spec.Gives L t r g b a r g b a := by
  obtain ⟨head, rfl⟩ := ctl1d_shape h
  rw [hc]
  exact ctl_gives L r g b a _ _ [] (by decide +kernel) _ _ _ _ _ rfl rfl rfl rfl rfl

/-- C110, cubes: the program sends every colour through the cube. -/
theorem C110_cube {α : Type} (L : Spec.Lookups α) (r g b a : α) (lo hi : Flt K) (data : Cube K)
    (res : ℕ × ℕ × ℕ) (t : Txt) (h : writeCtl3d lo hi data res = .ok t) :
    Spec.Gives L t r g b a (L.three "cube".toList "min3d".toList "max3d".toList (r, g, b)).1
      (L.three "cube".toList "min3d".toList "max3d".toList (r, g, b)).2.1
      (L.three "cube".toList "min3d".toList "max3d".toList (r, g, b)).2.2 a := by
  unfold writeCtl3d at h
  obtain ⟨cube, -, h⟩ := py_bind_eq_ok.mp h
  injection h with h
  rw [← h]
  exact ctl_gives L r g b a _ _ [.three "cube".toList "min3d".toList "max3d".toList ['r'] ['g'] ['b'] ['r'] ['g'] ['b']]
    (by decide +kernel) _ _ _ _ _ rfl rfl rfl rfl rfl

/-- The program text declares the constant as the number, rounded to nine decimals. -/
def Spec.CtlConst (text : Txt) (name : String) (x : Flt K) : Prop :=
  ∃ w y, "const float ".toList ++ name.toList ++ " = ".toList ++ w ++ [';'] <:+: text ∧
    readFlt w = .ok y ∧ Spec.Near9 x y

/-- The same for a constant with three equal entries. -/
def Spec.CtlConst3 (text : Txt) (name : String) (x : Flt K) : Prop :=
  ∃ w y, "const float ".toList ++ name.toList ++ "[3] = {".toList ++ w ++ ", ".toList ++ w ++ ", ".toList ++
    w ++ "};".toList <:+: text ∧ readFlt w = .ok y ∧ Spec.Near9 x y

theorem infix_first {t a1 a2 a3 a4 b x u n y v r1 r2 r3 r4 : Txt}
    (h : t = a1 ++ a2 ++ a3 ++ a4 ++ (b ++ x) ++ u ++ (";".toList ++ n) ++ y ++ v ++ r1 ++ r2 ++ r3 ++ r4) :
    x ++ u ++ [';'] <:+: t := by
  refine ⟨a1 ++ a2 ++ a3 ++ a4 ++ b, n ++ y ++ v ++ r1 ++ r2 ++ r3 ++ r4, ?_⟩
  rw [h, show ";".toList = [';'] from rfl]
  simp only [List.append_assoc]

theorem infix_second {t a1 a2 a3 a4 b u n x y v r1 r2 r3 r4 : Txt}
    (h : t = a1 ++ a2 ++ a3 ++ a4 ++ b ++ u ++ (";".toList ++ (n ++ x)) ++ y ++ (";".toList ++ v) ++ r1 ++ r2 ++ r3 ++ r4) :
    x ++ y ++ [';'] <:+: t := by
  refine ⟨a1 ++ a2 ++ a3 ++ a4 ++ b ++ u ++ [';'] ++ n, v ++ r1 ++ r2 ++ r3 ++ r4, ?_⟩
  rw [h, show ";".toList = [';'] from rfl]
  simp only [List.append_assoc]

/-- C110: the limits in the program are those of the sampling, to nine decimals. -/
theorem C110_limits (fmt : Flt K → Txt) (lo hi : Flt K) (data : List (Flt K))
    (entries channels components : ℕ) (t : Txt)
    (h : writeCtl1d fmt lo hi data entries channels components = .ok t) :
    Spec.CtlConst t "min1d" lo ∧ Spec.CtlConst t "max1d" hi := by
  have e : " 1D LUT generated by \"convertCLFtoLUT\"\n\nconst float min1d = ".toList
      = " 1D LUT generated by \"convertCLFtoLUT\"\n\n".toList ++ ("const float ".toList ++ "min1d".toList ++ " = ".toList) := by
    decide
  have e2 : ";\nconst float max1d = ".toList = ";".toList ++ ("\n".toList ++ ("const float ".toList ++ "max1d".toList ++ " = ".toList)) := by
    decide
  have e3 : ";\n\n".toList = ";".toList ++ "\n\n".toList := by decide
  have key : ∀ a1 a2 a3 a4 tables m l f : Txt, t = a1 ++ a2 ++ a3 ++ a4 ++
      " 1D LUT generated by \"convertCLFtoLUT\"\n\nconst float min1d = ".toList ++ fixed9 (.ofFlt lo) ++
      ";\nconst float max1d = ".toList ++ fixed9 (.ofFlt hi) ++ ";\n\n".toList ++ tables ++ m ++ l ++ f →
      Spec.CtlConst t "min1d" lo ∧ Spec.CtlConst t "max1d" hi := by
    intro a1 a2 a3 a4 tables m l f ht
    rw [e, e2, e3] at ht
    exact ⟨⟨_, _, infix_first ht, readFlt_fixed9 lo, back9_near lo⟩,
      ⟨_, _, infix_second ht, readFlt_fixed9 hi, back9_near hi⟩⟩
  unfold writeCtl1d at h
  dsimp only at h
  split at h
  · obtain ⟨tables, -, h⟩ := py_bind_eq_ok.mp h
    injection h with h
    exact key _ _ _ _ _ _ _ _ h.symm
  · obtain ⟨ts, -, h⟩ := py_bind_eq_ok.mp h
    injection h with h
    exact key _ _ _ _ _ _ _ _ h.symm

theorem ctlTriple_eq (x : Flt K) : ctlTriple x = "{".toList ++ fixed9 (.ofFlt x) ++ ", ".toList ++
    fixed9 (.ofFlt x) ++ ", ".toList ++ fixed9 (.ofFlt x) ++ "}".toList := by
  unfold ctlTriple
  rw [show "{".toList = ['{'] from rfl, show "}".toList = ['}'] from rfl]
  generalize ", ".toList = c
  simp only [List.replicate, joinWith, List.append_assoc]

theorem infix_triples {t a1 a2 b x u n y v r1 r2 r3 r4 r5 r6 r7 r8 r9 r10 r11 r12 o cm cl : Txt}
    (h : t = a1 ++ a2 ++ (b ++ x) ++ (o ++ u ++ cm ++ u ++ cm ++ u ++ cl) ++ (";".toList ++ (n ++ y)) ++
      (o ++ v ++ cm ++ v ++ cm ++ v ++ cl) ++ (";".toList ++ r1) ++ r2 ++ r3 ++ r4 ++ r5 ++ r6 ++ r7 ++ r8 ++
      r9 ++ r10 ++ r11 ++ r12) :
    x ++ o ++ u ++ cm ++ u ++ cm ++ u ++ (cl ++ ";".toList) <:+: t ∧
      y ++ o ++ v ++ cm ++ v ++ cm ++ v ++ (cl ++ ";".toList) <:+: t := by
  subst h
  refine ⟨⟨a1 ++ a2 ++ b, (n ++ y) ++ (o ++ v ++ cm ++ v ++ cm ++ v ++ cl) ++ (";".toList ++ r1) ++ r2 ++ r3 ++
    r4 ++ r5 ++ r6 ++ r7 ++ r8 ++ r9 ++ r10 ++ r11 ++ r12, ?_⟩,
    ⟨a1 ++ a2 ++ (b ++ x) ++ (o ++ u ++ cm ++ u ++ cm ++ u ++ cl) ++ ";".toList ++ n,
      r1 ++ r2 ++ r3 ++ r4 ++ r5 ++ r6 ++ r7 ++ r8 ++ r9 ++ r10 ++ r11 ++ r12, ?_⟩⟩
  all_goals
    generalize ";".toList = sc
    simp only [List.append_assoc]

/-- C110, cubes: the limits in the program are those of the sampling, to nine decimals. -/
theorem C110_limits_cube (lo hi : Flt K) (data : Cube K) (res : ℕ × ℕ × ℕ) (t : Txt)
    (h : writeCtl3d lo hi data res = .ok t) :
    Spec.CtlConst3 t "min3d" lo ∧ Spec.CtlConst3 t "max3d" hi := by
  unfold writeCtl3d at h
  obtain ⟨cube, -, h⟩ := py_bind_eq_ok.mp h
  injection h with h
  have e : " 3D LUT generated by \"convertCLFtoLUT\"\n\nconst float min3d[3] = ".toList
      = " 3D LUT generated by \"convertCLFtoLUT\"\n\n".toList ++
        ("const float ".toList ++ "min3d".toList ++ "[3] = ".toList) := by
    decide
  have e2 : ";\nconst float max3d[3] = ".toList
      = ";".toList ++ ("\n".toList ++ ("const float ".toList ++ "max3d".toList ++ "[3] = ".toList)) := by
    decide
  have e3 : ";\n\nconst float cube[".toList = ";".toList ++ "\n\nconst float cube[".toList := by decide
  rw [e, e2, e3, ctlTriple_eq, ctlTriple_eq] at h
  obtain ⟨h1, h2⟩ := infix_triples h.symm
  have o : "[3] = {".toList = "[3] = ".toList ++ "{".toList := by decide
  have c : "};".toList = "}".toList ++ ";".toList := by decide
  refine ⟨⟨_, _, ?_, readFlt_fixed9 lo, back9_near lo⟩, ⟨_, _, ?_, readFlt_fixed9 hi, back9_near hi⟩⟩
  · rw [o, c, ← List.append_assoc ("const float ".toList ++ "min3d".toList)]
    exact h1
  · rw [o, c, ← List.append_assoc ("const float ".toList ++ "max3d".toList)]
    exact h2

/-- Programs with one, two and three components, and one with a cube. -/
example : (writeCtl1d pyStr (.fin (-1)) (.fin (1 / 3)) [.fin 1, .fin (2 : ℚ)] 2 1).isOk = true ∧
    (writeCtl1d pyStr (.fin 0) (.fin 1) [.fin 1, .fin (2 : ℚ)] 1 2).isOk = true ∧
    (writeCtl1d pyStr (.fin 0) (.fin 1) [.fin 1, .fin (2 : ℚ), .fin 3] 1 3).isOk = true ∧
    (writeCtl3d (.fin 0) (.fin 1) [[[[.fin 1, .fin (2 : ℚ), .fin 3]]]] (1, 1, 1)).isOk = true := by
  decide +kernel

/-- With two components nothing is looked up. -/
example : ∃ t, writeCtl1d pyStr (.fin 0) (.fin 1) [.fin 5, .fin (5 : ℚ)] 1 2 = .ok t ∧
    Spec.CtlTable t "lut1".toList ["5.0".toList] ∧
    Spec.Gives (α := ℚ) ⟨fun _ _ _ _ => 5, fun _ _ _ _ => (5, 5, 5)⟩ t 0 1 2 3 0 1 2 3 := by
  refine ⟨_, rfl, ?_, C110_false _ _ _ _ _ pyStr (.fin 0) (.fin 1) [.fin 5, .fin (5 : ℚ)] 1 2 3 rfl _ rfl⟩
  unfold Spec.CtlTable
  decide +kernel

end CLF
