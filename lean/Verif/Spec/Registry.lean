import Verif.Model.Registry
import Verif.Spec.Files

/-!
# What the registry of LUT formats should do
-/

namespace CLF.Spec

variable {K : Type}

/-- No extension is shared by two of the classes. -/
def Unshared (cs : List (LutClass K)) : Prop :=
  cs.Pairwise fun c d => ∀ e, ¬ (e ∈ c.extensions ∧ e ∈ d.extensions)

/-- The documented formats: what can be done with files of which extension. -/
def supported : List (String × Capability) :=
  [("spi1d", .read), ("spi1d", .write1d), ("spi3d", .read), ("spi3d", .write3d),
    ("csp", .read), ("csp", .write1d), ("csp", .write3d), ("csp", .write1d3d1d),
    ("clf", .write1d3d1d), ("ctl", .write1d), ("ctl", .write3d)]

/-- The extension of the path is `e` in some mixture of upper and lower case, perhaps with
blanks around it. -/
def Extension (path e : Txt) : Prop := ∃ e', HasExtension path e' ∧ lower (strip e') = e

/-- Nodes, unless there are none. -/
def found (ns : List (Node K)) : Option (List (Node K)) := if ns.isEmpty then none else some ns

end CLF.Spec
