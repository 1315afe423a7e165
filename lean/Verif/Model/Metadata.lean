import Verif.Model.Image

/-!
# The metadata of a filtered image (`filterImageWithCLF.py:259-300`)

The named attributes of an image, in their order.  Setting an attribute replaces the one of
the same name, if there is one.  The names are compared as they are; the types of the
attributes are left out.
-/

namespace CLF

/-- The value of an attribute. -/
inductive MetaVal
  | int (n : ℤ)
  | text (t : String)
  | other (t : String)
  deriving DecidableEq

/-- The loop over the attributes of the source (`filterImageWithCLF.py:278-288`). -/
def copyAttributes (metadata : Dict MetaVal) (d : AVal) : Py (Dict MetaVal) :=
  metadata.foldlM (init := []) fun spec attr =>
    if attr.1 = "oiio:BitsPerSample" then do
      let n ← depthBits d
      pure (spec.set attr.1 (.int n))
    else pure (spec.set attr.1 attr.2)

/-- The attributes that `writePixelArray` sets (`filterImageWithCLF.py:219, 269-300`). -/
def outputAttributes (metadata : Dict MetaVal) (d : AVal) (compression : Option String) (quality : ℤ) :
    Py (Dict MetaVal) := do
  let type ← depthType d
  let spec ← copyAttributes metadata d
  let spec ←
    if (type = .uint8 ∨ type = .uint16) ∧ "oiio:BitsPerSample" ∉ metadata.map Prod.fst then do
      let n ← depthBits d
      pure (spec.set "oiio:BitsPerSample" (.int n))
    else pure spec
  let spec := match compression with
    | none => spec
    | some c => if c = "" then spec else spec.set "compression" (.text c)
  pure (if 0 < quality then spec.set "CompressionQuality" (.int quality) else spec)

end CLF
