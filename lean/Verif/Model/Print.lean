import Verif.Model.Write
import Verif.Model.Process

/-!
# Printing information (`printInfo`)

What is printed, line by line.  The lines of tables and index maps are their exact text;
other lines are given by what they show, since their numbers are printed in ways that differ
from type to type.  Dictionaries are printed in the order in which they were filled; Python 2
orders them otherwise.  If an exception is raised, the lines printed before it are left out.
Encoding non-ASCII text for the terminal is left out.
-/

namespace CLF

variable {K : Type} [Field K] [LinearOrder K] [IsStrictOrderedRing K] [FloorRing K]

/-- What a line shows after its labels. -/
inductive Shown (K : Type)
  | text (t : Option String)
  | attr (v : AVal)
  | num (x : Flt K)
  | nums (xs : List (Flt K))
deriving DecidableEq

/-- A printed line: a heading, a labelled value (`"%20s : %15s : %15s"`), or a line of a table
or an index map. -/
inductive Line (K : Type)
  | title (t : String)
  | entry (kind key : String) (value : Shown K)
  | row (t : Txt)
deriving DecidableEq

/-- `clf/Array.py:269-272`: one entry of a row. -/
def printCell (integers : Bool) (x : Flt K) : Py Txt :=
  if integers then do
    let n ← truncInt x
    pure (padLeft 15 (showInt n))
  else .ok (padLeft 15 (show9 (SFlt.ofFlt x)))

/-- `clf/Array.py:268-273`: the row `n` of a table. -/
def printRow (a : Arr K) (columns n : ℕ) : Py (Line K) := do
  let cells ← (pySlice a.values (n * columns) ((n + 1) * columns)).mapM (printCell a.integers)
  pure (.row (List.replicate 30 ' ' ++ joinWith [' '] cells))

/-- `clf/Array.py:258-263`: the entries per row. -/
def printColumns (dims : List ℕ) : Py ℕ :=
  if dims.length = 2 ∨ dims.length = 4 then pyGet dims (dims.length - 1) else pyGet dims 1

/-- `clf/Array.py:250-290` `Array.printInfo`. -/
def Arr.printInfo (a : Arr K) : Py (List (Line K)) := do
  let head : List (Line K) := [.title "Array", .entry "Dimensions" "" (.nums (a.dims.map fun d => .fin d)),
    .title "Values"]
  let columns ← printColumns a.dims
  if columns = 0 then .error .zeroDivision
  else
    let rows := a.values.length / columns
    if 10 < rows then
      let first ← (List.range 3).mapM (printRow a columns)
      let dots : Line K :=
        .row (List.replicate (30 + columns / 2 * 16) ' ' ++ "    ...    ".toList)
      let last ← (List.range 3).mapM fun i => printRow a columns (rows - 3 + i)
      pure (head ++ first ++ [dots] ++ last)
    else
      let all ← (List.range rows).mapM (printRow a columns)
      pure (head ++ all)

/-- Python 2 `map` over two lists: the shorter one is filled with `None`. -/
def zipFill {α β : Type} : List α → List β → List (Option α × Option β)
  | [], bs => bs.map fun b => (none, some b)
  | a :: as, [] => (some a, none) :: zipFill as []
  | a :: as, b :: bs => (some a, some b) :: zipFill as bs

/-- `"%s"`. -/
def showOpt (x : Option (Flt K)) : Txt :=
  match x with
  | some x => str12 (SFlt.ofFlt x)
  | none => "None".toList

/-- `"%6.9f"`: `None` is a `TypeError`. -/
def show9Opt (x : Option (Flt K)) : Py Txt :=
  match x with
  | some x => .ok (show9 (SFlt.ofFlt x))
  | none => .error .typeError

/-- `clf/IndexMap.py:189-209` `IndexMap.printInfo`.  A map that was constructed without values
is left out. -/
def IndexMap.printInfo (m : IndexMap K) : Py (List (Line K)) := do
  let length := m.inputs.length
  let head : List (Line K) := [.title "IndexMap", .entry "Length" "" (.num (.fin length)), .title "Values"]
  let pairs := zipFill m.inputs m.outputs
  if length < 15 then
    pure (head ++ [.row ("\t\tmap : ".toList ++
      joinWith [' '] (pairs.map fun p => showOpt p.1 ++ [','] ++ showOpt p.2))])
  else
    let texts ← pairs.mapM fun p => do
      let a ← show9Opt p.1
      let b ← show9Opt p.2
      pure (a ++ ", ".toList ++ b)
    let line (n : ℕ) : Py (Line K) := do
      let t ← pyGet texts n
      pure (.row (List.replicate 30 ' ' ++ t))
    let first ← (List.range 3).mapM line
    let last ← (List.range 3).mapM fun i => line (length - 3 + i)
    pure (head ++ first ++ [.row (List.replicate 30 ' ' ++ "    ...    ".toList)] ++ last)

/-- `printInfo` of an element (`clf/Comment.py:85-86`, `clf/Info.py:109-112`). -/
def Elem.printInfo : Elem K → Py (List (Line K))
  | .comment tag t => .ok [.entry tag "" (.text t)]
  | .info cs => .ok (.title "Info" :: cs.map fun c => .entry c.1 "" (.text c.2))
  | .array a => a.printInfo
  | .indexMap m => m.printInfo

/-- The values that `printInfoChild` of a leaf shows: `clf/ASCCDL.py:236-239`,
`clf/ExtensionExposureContrast.py:174-187`, `clf/ExtensionGamma.py:191-210`,
`clf/ExtensionLog.py:235-271`; the others show none (`clf/ProcessNode.py:264-265`).  The
parameters of Gamma and Log are combined in the same way as for processing. -/
def Kind.shown : Kind K → Py (List (String × Shown K))
  | .cdl _ v => .ok
      ((v.slope.map fun x => ("slope", Shown.nums x)).toList ++
       (v.offset.map fun x => ("offset", Shown.nums x)).toList ++
       (v.power.map fun x => ("power", Shown.nums x)).toList ++
       (v.saturation.map fun x => ("saturation", Shown.num x)).toList)
  | .exposureContrast e _ p => .ok [("exposure", .num e), ("contrast", .num e), ("pivot", .num p)]
  | .gamma ps => do
      let r ← gammaParams ps
      pure [("gamma", .nums (r.map (·.1))), ("offset", .nums (r.map (·.2)))]
  | .log ps => do
      let r ← logParams ps
      pure [("gamma", .nums (r.map (·.gamma))), ("ref white", .nums (r.map (·.refWhite))),
        ("ref black", .nums (r.map (·.refBlack))), ("highlight", .nums (r.map (·.highlight))),
        ("shadow", .nums (r.map (·.shadow)))]
  | _ => .ok []

/-- `clf/ProcessNode.py:240-257`: the lines before those of `printInfoChild`. -/
def printBase (type : String) (b : Base K) : Py (List (Line K)) := do
  let es ← b.elements.mapM Elem.printInfo
  pure ([.title ("ProcessNode type : " ++ type)] ++
    b.attrs.map (fun kv => .entry "Attribute" kv.1 (.attr kv.2)) ++
    b.values.map (fun kv => .entry "Element" kv.1 (.num kv.2)) ++
    b.dyn.map (fun d => .entry "Dynamic Parameter" "" (.text (some d))) ++ es.flatten)

/-- `clf/ExtensionReference.py:147`: the path shown, as it was resolved. -/
def resolvedPath (b : Base K) : Option String :=
  match joinPath ((b.attrs.get? "basePath").getD (.str "")) ((b.attrs.get? "path").getD (.str "")) with
  | .ok p => some p
  | .error _ => none

mutual

/-- `clf/ProcessNode.py:240-262` `printInfo` with `printInfoChild` of Group and Reference
(`clf/ExtensionGroup.py:158-163`, `clf/ExtensionReference.py:146-149`).  Of the referenced list
only the nodes are kept in the model, so the lines for its own attributes and elements are left
out. -/
def Node.printInfo : Node K → Py (List (Line K))
  | .leaf k b => do
    let head ← printBase k.tag b
    let shown ← k.shown
    pure (head ++ shown.map (fun s => .entry "Value" s.1 s.2) ++ [.title ""])
  | .group b cs => do
    let head ← printBase "Group" b
    let rest ← printNodes cs
    pure (head ++ [.title "Process Nodes"] ++ rest ++ [.title ""])
  | .ref b _ ns => do
    let head ← printBase "Reference" b
    let rest ← printNodes ns
    pure (head ++ [.entry "Resolved Path" "" (.text (resolvedPath b)), .title "ProcessList", .title "",
      .title "Process Nodes"] ++ rest ++ [.title ""])
  | .refMissing b _ => do
    let head ← printBase "Reference" b
    pure (head ++ [.entry "Resolved Path" "" (.text (resolvedPath b)), .title ""])

/-- The loop over nodes (`clf/ProcessList.py:418-421`). -/
def printNodes : List (Node K) → Py (List (Line K))
  | [] => .ok []
  | n :: ns => do
    let head ← n.printInfo
    let rest ← printNodes ns
    pure (head ++ [.title ""] ++ rest)

end

/-- `clf/ProcessList.py:400-421` `ProcessList.printInfo`. -/
def PList.printInfo (l : PList K) : Py (List (Line K)) := do
  let es ← l.elements.mapM Elem.printInfo
  let rest ← printNodes l.processes
  pure ([.title "ProcessList"] ++
    l.attrs.map (fun kv => .entry "Attribute" kv.1 (.attr kv.2)) ++
    l.values.map (fun kv => .entry "Element" kv.1 (.num kv.2)) ++
    es.flatten ++ [.title "", .title "Process Nodes"] ++ rest)

end CLF
