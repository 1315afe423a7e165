import Verif.Model.Spi

/-! # Specifications for lookup table files -/

namespace CLF.Spec

variable {K : Type} [Field K] [LinearOrder K] [IsStrictOrderedRing K] [FloorRing K]

/-- `fmt` prints every number as one word without white space, which `float` reads as
`back` of the number. -/
structure NumText (fmt : Flt K → Txt) (back : Flt K → Flt K) : Prop where
  noSpace : ∀ x, ∀ c ∈ fmt x, isSpace c = false
  nonempty : ∀ x, fmt x ≠ []
  read : ∀ x, readFlt (fmt x) = .ok (back x)

/-- `y` is `x` rounded to six decimals: at most half a unit of the sixth decimal away, and
`x` itself if that has no more than six decimals. -/
def Near6 : Flt K → Flt K → Prop
  | .fin x, .fin y => |y - x| ≤ 1 / 2 / 10 ^ 6 ∧ ((∃ n : ℤ, x = n / 10 ^ 6) → y = x)
  | .inf a, .inf b => a = b
  | .nan, .nan => True
  | _, _ => False

/-- A number with at most six decimals. -/
def Six (x : K) : Prop := ∃ n : ℤ, x = n / 10 ^ 6

/-- A table of colours as nested lists. -/
def nested {α : Type} {a b c : ℕ} (V : Fin a → Fin b → Fin c → Fin 3 → α) :
    List (List (List (List α))) :=
  List.ofFn fun i => List.ofFn fun j => List.ofFn fun k => List.ofFn (V i j k)

/-! ### CTL programs -/

/-- The program text declares the constant table `name` with these entries. -/
def CtlTable (text name : Txt) (entries : List Txt) : Prop :=
  "const float ".toList ++ name ++ "[] = {\n".toList ++ joinWith ",\n".toList entries ++ "\n};".toList
    <:+: text

/-- An aggregate: `{a,b,c}`. -/
def aggregate (items : List Txt) : Txt := ['{'] ++ joinWith [','] items ++ ['}']

/-- A text without its white space. -/
def squeeze (t : Txt) : Txt := t.filter fun c => !isSpace c

/-- Up to white space, the program text declares `cube[a][b][c][3]` with the numbers
`W r g b` (channel by channel) as the entry at `[r][g][b]`. -/
def CtlCube {a b c : ℕ} (text : Txt) (W : Fin a → Fin b → Fin c → Fin 3 → Txt) : Prop :=
  "constfloatcube[".toList ++ showNat a ++ "][".toList ++ showNat b ++ "][".toList ++ showNat c ++
    "][3]=".toList ++
    aggregate (List.ofFn fun i => aggregate (List.ofFn fun j => aggregate (List.ofFn fun k =>
      aggregate (List.ofFn (W i j k))))) ++ [';']
    <:+: squeeze text

/-! ### File names -/

/-- The path ends in a file name: what comes before is empty or ends in a slash. -/
def IsDir (dir : Txt) : Prop := dir = [] ∨ ∃ d, dir = d ++ ['/']

/-- The path has the extension `e`: `dir/name.e`, with a name that is not made of dots only. -/
def HasExtension (path e : Txt) : Prop :=
  ∃ dir name, path = dir ++ name ++ '.' :: e ∧ IsDir dir ∧ '/' ∉ name ∧ (∃ c ∈ name, c ≠ '.') ∧
    '.' ∉ e ∧ '/' ∉ e

/-- The path has no extension: its name has no dots but leading ones. -/
def NoExtension (path : Txt) : Prop :=
  ∃ dir dots name, path = dir ++ dots ++ name ∧ IsDir dir ∧ (∀ c ∈ dots, c = '.') ∧ '/' ∉ name ∧
    '.' ∉ name

end CLF.Spec
