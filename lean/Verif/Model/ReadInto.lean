import Verif.Model.Read

/-!
# Reading into a list that already exists

Source: `/repo/python/aces/clf/ProcessList.py`.

`read` and `readFile` are methods, and a list may be given to them that has content.  An exception leaves the list as
it is at that moment, so both give the list and the exception, if there is one.
-/

namespace CLF

variable {K : Type} [Field K] [LinearOrder K] [IsStrictOrderedRing K] [FloorRing K]

/-- The loop over the children (`clf/ProcessList.py:195-233`).  A node is added after it has been read. -/
def readChildrenInto (A : Arith K) (compat : ℕ) (load : String → Py (Option (List (Node K)))) (strict : Bool) :
    List Xml → PList K → PList K × Option PyErr
  | [], l => (l, none)
  | c :: cs, l =>
    match readListStep A compat load strict l c with
    | .ok l' => readChildrenInto A compat load strict cs l'
    | .error e => (l, some e)

/-- `clf/ProcessList.py:187-234` `read`. -/
def readListInto (A : Arith K) (compat : ℕ) (load : String → Py (Option (List (Node K)))) (strict : Bool) (l : PList K)
    (x : Xml) : PList K × Option PyErr :=
  readChildrenInto A compat load strict x.children
    { l with attrs := x.attrs.foldl (fun d kv => d.set kv.1 (.str kv.2)) l.attrs }

/-- `clf/ProcessList.py:236-258` `readFile` (see `readContents` and `readFile`).  `fuel` bounds the nesting of the files
referred to. -/
def readFileInto (A : Arith K) (compat : ℕ) (fs : String → Option File) (fuel : ℕ) (strict : Bool) (path : String)
    (l : PList K) : PList K × Option PyErr :=
  let rd := readListInto A compat (fun p =>
    match fs p with
    | none => .ok none
    | some _ => do
      let l ← readFile A compat fs fuel false p
      pure (some l.processes)) strict l
  match fs path with
  | none => (l, some .ioError)
  | some (.doc x) => rd x
  | some (.gz x) =>
    if hasFeature compat duiker then
      match rd x with
      | (l', none) => (l', none)
      | (l', some _) => (l', some .parseError)
    else (l, some .parseError)
  | some .garbage => (l, some .parseError)
  | some .unreadable => (l, some .ioError)

end CLF
