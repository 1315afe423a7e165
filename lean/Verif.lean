import Verif.Lemmas.Approx
import Verif.Lemmas.ArrayText
import Verif.Lemmas.Baked
import Verif.Lemmas.Bits
import Verif.Lemmas.Bypass
import Verif.Lemmas.Cdl
import Verif.Lemmas.Csp
import Verif.Lemmas.CubeOrder
import Verif.Lemmas.Dict
import Verif.Lemmas.Exposure
import Verif.Lemmas.FloatText
import Verif.Lemmas.Flt
import Verif.Lemmas.Gamma
import Verif.Lemmas.Grey
import Verif.Lemmas.HalfDomain
import Verif.Lemmas.Heap
import Verif.Lemmas.Ieee
import Verif.Lemmas.Image
import Verif.Lemmas.IndexCurve
import Verif.Lemmas.IndexMap
import Verif.Lemmas.IndexMapText
import Verif.Lemmas.LeOk
import Verif.Lemmas.Log
import Verif.Lemmas.Loops
import Verif.Lemmas.Lut1d
import Verif.Lemmas.Lut3d
import Verif.Lemmas.LutRows
import Verif.Lemmas.MapNode
import Verif.Lemmas.MappedNode
import Verif.Lemmas.Matrix
import Verif.Lemmas.Nearest
import Verif.Lemmas.Nodes
import Verif.Lemmas.Numerals
import Verif.Lemmas.OpenGrade
import Verif.Lemmas.Range
import Verif.Lemmas.Read
import Verif.Lemmas.ReadFile
import Verif.Lemmas.ReadParams
import Verif.Lemmas.ReadRel
import Verif.Lemmas.RelClose
import Verif.Lemmas.RoundTrip
import Verif.Lemmas.RoundTripList
import Verif.Lemmas.RoundedAlpha
import Verif.Lemmas.RoundedCdl
import Verif.Lemmas.RoundedCdlRev
import Verif.Lemmas.RoundedCube
import Verif.Lemmas.RoundedExact
import Verif.Lemmas.RoundedHalf
import Verif.Lemmas.RoundedIndexMap
import Verif.Lemmas.RoundedList
import Verif.Lemmas.RoundedLog
import Verif.Lemmas.RoundedLut
import Verif.Lemmas.RoundedMatrix
import Verif.Lemmas.RoundedOrder
import Verif.Lemmas.RoundedPos
import Verif.Lemmas.RoundedRange
import Verif.Lemmas.RoundedRangeErr
import Verif.Lemmas.RoundedSum
import Verif.Lemmas.RoundedTone
import Verif.Lemmas.Sampling
import Verif.Lemmas.SelfContained
import Verif.Lemmas.Shape
import Verif.Lemmas.SingleScale
import Verif.Lemmas.SingleText
import Verif.Lemmas.Spi
import Verif.Lemmas.Str12
import Verif.Lemmas.TetraRow
import Verif.Lemmas.Text
import Verif.Lemmas.XmlChars
import Verif.Lemmas.XmlLayout
import Verif.Lemmas.XmlParse
import Verif.Lemmas.XmlRead
import Verif.Lemmas.XmlSame
import Verif.Lemmas.XmlSpaces
import Verif.Lemmas.XmlText
import Verif.Lemmas.XmlTidy
import Verif.Lemmas.XmlWrite
import Verif.Model.Accessors
import Verif.Model.Array
import Verif.Model.ArrayObject
import Verif.Model.ArrayText
import Verif.Model.BitDepth
import Verif.Model.Build
import Verif.Model.Csp
import Verif.Model.Ctl
import Verif.Model.HalfPack
import Verif.Model.Heap
import Verif.Model.Ieee
import Verif.Model.Image
import Verif.Model.IndexMap
import Verif.Model.IndexMapObject
import Verif.Model.LutClf
import Verif.Model.Metadata
import Verif.Model.Node
import Verif.Model.NodeCalls
import Verif.Model.Num
import Verif.Model.Ocio
import Verif.Model.Print
import Verif.Model.Process
import Verif.Model.Py
import Verif.Model.Read
import Verif.Model.ReadInto
import Verif.Model.Registry
import Verif.Model.Rounded
import Verif.Model.RoundedImage
import Verif.Model.RoundedList
import Verif.Model.RoundedPower
import Verif.Model.RoundedSampling
import Verif.Model.RoundedWrite
import Verif.Model.Sampling
import Verif.Model.Scripts
import Verif.Model.Spi
import Verif.Model.Text
import Verif.Model.Verbose
import Verif.Model.Write
import Verif.Model.XmlText
import Verif.Props.Access
import Verif.Props.ArrayObject
import Verif.Props.ArrayText
import Verif.Props.Baked
import Verif.Props.Bypass
import Verif.Props.Capabilities
import Verif.Props.Cdl
import Verif.Props.Channels
import Verif.Props.Colours
import Verif.Props.Convert
import Verif.Props.ConvertedIeee
import Verif.Props.Csp
import Verif.Props.CspOne
import Verif.Props.CspPrelut
import Verif.Props.CspShaper
import Verif.Props.Ctl
import Verif.Props.CtlRun
import Verif.Props.CubeOrder
import Verif.Props.DepthSplit
import Verif.Props.EndToEnd
import Verif.Props.Exposure
import Verif.Props.FilmTrip
import Verif.Props.Gamma
import Verif.Props.Grey
import Verif.Props.HalfDomain
import Verif.Props.HalfPack
import Verif.Props.Heap
import Verif.Props.Image
import Verif.Props.ImageConvert
import Verif.Props.ImageDepth
import Verif.Props.Incomplete
import Verif.Props.IndexMap
import Verif.Props.IndexMapCache
import Verif.Props.IndexMapObject
import Verif.Props.IndexMapText
import Verif.Props.Inverse
import Verif.Props.Log
import Verif.Props.Lut1d
import Verif.Props.Lut3d
import Verif.Props.LutClf
import Verif.Props.LutRows
import Verif.Props.LutText
import Verif.Props.MappedList
import Verif.Props.Matrix
import Verif.Props.Metadata
import Verif.Props.Moved
import Verif.Props.NodeCalls
import Verif.Props.Nodes
import Verif.Props.Numbers
import Verif.Props.Ocio
import Verif.Props.OcioInverse
import Verif.Props.OcioPaths
import Verif.Props.OpenGrade
import Verif.Props.Precision
import Verif.Props.Print
import Verif.Props.Range
import Verif.Props.RangeList
import Verif.Props.Read
import Verif.Props.ReadFile
import Verif.Props.ReadInto
import Verif.Props.ReadParams
import Verif.Props.Registry
import Verif.Props.RootTag
import Verif.Props.RoundTrip
import Verif.Props.RoundedAlpha
import Verif.Props.RoundedAlphaImage
import Verif.Props.RoundedCdl
import Verif.Props.RoundedCdlRev
import Verif.Props.RoundedCineon
import Verif.Props.RoundedGamma
import Verif.Props.RoundedHalf
import Verif.Props.RoundedImage
import Verif.Props.RoundedIndexMap
import Verif.Props.RoundedList
import Verif.Props.RoundedLog
import Verif.Props.RoundedLut1d
import Verif.Props.RoundedLut3d
import Verif.Props.RoundedMapped3d
import Verif.Props.RoundedMatrix
import Verif.Props.RoundedMoncurve
import Verif.Props.RoundedOrder
import Verif.Props.RoundedRange
import Verif.Props.RoundedRangeErr
import Verif.Props.RoundedSampling
import Verif.Props.RoundedTree
import Verif.Props.Sampling
import Verif.Props.ScriptShapers
import Verif.Props.Scripts
import Verif.Props.Spi
import Verif.Props.Steady
import Verif.Props.StoredList
import Verif.Props.Styles
import Verif.Props.ToneList
import Verif.Props.ToneOrder
import Verif.Props.Verbose
import Verif.Props.XmlText
import Verif.Spec.Access
import Verif.Spec.Alpha
import Verif.Spec.Bake
import Verif.Spec.Basic
import Verif.Spec.Bits
import Verif.Spec.Chain
import Verif.Spec.Channels
import Verif.Spec.Colours
import Verif.Spec.Cube
import Verif.Spec.Curves
import Verif.Spec.Files
import Verif.Spec.Grey
import Verif.Spec.Half
import Verif.Spec.IndexCurve
import Verif.Spec.Layout
import Verif.Spec.Library
import Verif.Spec.LutRows
import Verif.Spec.Nodes
import Verif.Spec.Numerals
import Verif.Spec.OpenGrade
import Verif.Spec.Params
import Verif.Spec.Real
import Verif.Spec.Registry
import Verif.Spec.RoundTrip
import Verif.Spec.Sampling
import Verif.Spec.StoredChain
import Verif.Spec.Text
import Verif.Spec.Tree
import Verif.Spec.Xml
import Verif.Spec.XmlText
