import Verif.Model.BitDepth

/-!
# Accessors of lists and nodes

`clf/ProcessList.py:95-116, 261-341`, `clf/ProcessNode.py:269-276`.  Nodes are
objects: a list holds references, and the same node may be in it several times.  Only the
attributes of nodes are represented.  Attribute values are not `None`.
-/

namespace CLF.Access

/-- The attributes of all node objects, and one `ProcessList` object: its attributes, its
value elements are left out, and the nodes it refers to. -/
structure State where
  nodes : ℕ → Dict AVal
  attrs : Dict AVal
  processes : List ℕ

/-- A list just constructed (`clf/ProcessList.py:95-104`). -/
def new (nodes : ℕ → Dict AVal) : State := ⟨nodes, [], []⟩

/-- The calls that change the state: the methods of the list, and `setAttribute` of a
node. -/
inductive Call
  | addProcess (n : ℕ)
  | setInBitDepth (d : AVal)
  | setOutBitDepth (d : AVal)
  | setAttribute (key : String) (v : AVal)
  | nodeSetAttribute (n : ℕ) (key : String) (v : AVal)

/-- `clf/ProcessNode.py:269-270`. -/
def setNode (s : State) (n : ℕ) (key : String) (v : AVal) : State :=
  { s with nodes := fun m => if m = n then (s.nodes n).set key v else s.nodes m }

/-- One call (`clf/ProcessList.py:261-262, 296-298, 305-307, 333-334`). -/
def step (s : State) : Call → State
  | .addProcess n => { s with processes := s.processes ++ [n] }
  | .setInBitDepth d =>
    if 0 < s.processes.length then
      match s.processes[0]? with
      | some n => setNode s n "inBitDepth" d
      | none => s
    else s
  | .setOutBitDepth d =>
    if 0 < s.processes.length then
      match s.processes[s.processes.length - 1]? with
      | some n => setNode s n "outBitDepth" d
      | none => s
    else s
  | .setAttribute key v => { s with attrs := s.attrs.set key v }
  | .nodeSetAttribute n key v => setNode s n key v

/-- A sequence of calls. -/
def run (s : State) (cs : List Call) : State := cs.foldl step s

/-- `clf/ProcessList.py:263-268` `getAttribute`. -/
def getAttribute (s : State) (key : String) : Option AVal := s.attrs.get? key

/-- `clf/ProcessNode.py:271-276` `getAttribute` of a node. -/
def nodeGet (s : State) (n : ℕ) (key : String) : Option AVal := (s.nodes n).get? key

/-- `clf/ProcessList.py:299-303` `getInBitDepth`. -/
def getInBitDepth (s : State) : Option AVal :=
  if 0 < s.processes.length then s.processes[0]?.bind fun n => nodeGet s n "inBitDepth" else none

/-- `clf/ProcessList.py:308-312` `getOutBitDepth`. -/
def getOutBitDepth (s : State) : Option AVal :=
  if 0 < s.processes.length then
    s.processes[s.processes.length - 1]?.bind fun n => nodeGet s n "outBitDepth"
  else none

/-- `clf/ProcessList.py:337-341` `getProcess`. -/
def getProcess (s : State) (name : Option AVal) : Option ℕ :=
  go s.processes
where
  /-- The loop. -/
  go : List ℕ → Option ℕ
    | [] => none
    | n :: ns => if nodeGet s n "name" = name then some n else go ns

end CLF.Access
