/-!
# Python run-time pieces

Exceptions as values, Python list indexing and slicing.  These stand for the
Python 2 interpreter, not for a file of the repository; the repository lines
that rely on them are cited where they are used.
-/

namespace CLF

/-- The exceptions the modelled code can raise.  `unsupportedExtension` and
`unknownProcessNode` are the project's own, `clf/Errors.py`; the rest are
Python built-ins, `parseError` is `xml.etree.ElementTree.ParseError` and
`recursion` is Python's "maximum recursion depth exceeded" `RuntimeError`. -/
inductive PyErr
  | nameError | keyError | indexError | zeroDivision | typeError
  | attributeError | valueError | overflow | unboundLocal
  | unsupportedExtension | unknownProcessNode | parseError | recursion | ioError
  deriving DecidableEq, Repr

/-- A Python computation that returns a value or raises. -/
abbrev Py := Except PyErr

/-- `l[i]` for a Python list or numpy array and a possibly negative index:
negative indices count from the end, anything else out of range is an
`IndexError`. -/
def pyIdx {α : Type} (l : List α) (i : Int) : Py α :=
  let j : Int := if i < 0 then i + l.length else i
  if j < 0 then .error .indexError
  else match l[j.toNat]? with
    | some x => .ok x
    | none => .error .indexError

/-- `l[i]` for a natural-number index. -/
def pyGet {α : Type} (l : List α) (i : Nat) : Py α :=
  match l[i]? with
  | some x => .ok x
  | none => .error .indexError

/-- `l[i] = x` for a natural-number index. -/
def pySet {α : Type} (l : List α) (i : Nat) (x : α) : Py (List α) :=
  if i < l.length then .ok (l.set i x) else .error .indexError

/-- `l[a:b]` for natural-number bounds with `a ≤ b`. -/
def pySlice {α : Type} (l : List α) (a b : Nat) : List α :=
  (l.drop a).take (b - a)

/-- `l[a:a+len(new)] = new` on a numpy array, where the slice has the length of
`new` (the only use in the modelled code). -/
def pySplice {α : Type} (l : List α) (a : Nat) (new : List α) : List α :=
  l.take a ++ new ++ l.drop (a + new.length)

/-- Python 2 integer division of non-negative integers; raises on a zero
divisor. -/
def pyDivNat (a b : Nat) : Py Nat :=
  if b = 0 then .error .zeroDivision else .ok (a / b)

end CLF
