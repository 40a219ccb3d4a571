import Verif.Props.Values
import Verif.Props.Interleave
import Verif.Props.Arrays
import Verif.Props.Chunks
import Verif.Props.Framing
import Verif.Props.Codec
import Verif.Props.NoPanic
import Verif.Props.Encode
import Verif.Props.EncodeExamples
import Verif.Props.EncodeOrder
import Verif.Props.EncodeNoPanic
import Verif.Rbxl.Insert
import Verif.Props.CFrame
import Verif.Props.Names
import Verif.Props.Errors
import Verif.Props.Refs
import Verif.Props.Copy
import Verif.Props.CopyValue
import Verif.Props.TypeIds
import Verif.Props.XmlDocument
import Verif.Props.XmlLines
import Verif.Rbxlx.CodecDecode
import Verif.Rbxlx.CodecEncode
import Verif.Errors.Model
import Verif.Go.Base64
import Verif.Go.Basic
import Verif.Go.Decimal
import Verif.Go.DecimalLemmas
import Verif.Go.DecimalText
import Verif.Go.Shortest
import Verif.Go.Float
import Verif.Go.FloatText
import Verif.Go.Map
import Verif.Go.Sort
import Verif.Go.Strconv
import Verif.Props.XmlDecode
import Verif.Props.XmlPanics
import Verif.Props.XmlTree
import Verif.Props.XmlTreeExamples
import Verif.Props.XmlExact
import Verif.Rbxfile.Copy
import Verif.Rbxfile.CopyLemmas
import Verif.Rbxfile.CopyMain
import Verif.Rbxfile.Memory
import Verif.Rbxfile.Names
import Verif.Rbxfile.NamesLemmas
import Verif.Rbxfile.Refs
import Verif.Rbxfile.ValueEq
import Verif.Rbxfile.Values
import Verif.Rbxl.Arrays
import Verif.Rbxl.ArraysLemmas
import Verif.Rbxl.CFrame
import Verif.Rbxl.CodecDecode
import Verif.Rbxl.CodecEncode
import Verif.Rbxl.CodecLemmas
import Verif.Rbxl.CodecValues
import Verif.Rbxl.EncClass
import Verif.Rbxl.EncDecode
import Verif.Rbxl.EncMain
import Verif.Rbxl.EncNoPanic
import Verif.Rbxl.EncOrder
import Verif.Rbxl.EncProps
import Verif.Rbxl.EncSizes
import Verif.Rbxl.EncTree
import Verif.Rbxl.EncValues
import Verif.Rbxl.FileLemmas
import Verif.Rbxl.Framing
import Verif.Rbxl.Interleave
import Verif.Rbxl.Model
import Verif.Rbxl.ModelLemmas
import Verif.Rbxl.NoPanic
import Verif.Rbxl.Values
import Verif.Rbxl.ValuesLemmas
import Verif.Rbxl.Zigzag
import Verif.Rbxlx.CodecBack
import Verif.Rbxlx.CodecValue
import Verif.Rbxlx.Discard
import Verif.Rbxlx.DocLemmas
import Verif.Rbxlx.Document
import Verif.Rbxlx.GoFloat
import Verif.Rbxlx.ShortFloat
import Verif.Rbxlx.Lines
import Verif.Rbxlx.NoPanic
import Verif.Rbxlx.Order
import Verif.Rbxlx.PropBack
import Verif.Rbxlx.TextLemmas
import Verif.Rbxlx.Total
import Verif.Rbxlx.TreeBack
import Verif.Rbxlx.TreeDec
import Verif.Rbxlx.TreeDoc
import Verif.Rbxlx.TreeEnc
import Verif.Rbxlx.TreeMain
import Verif.Rbxlx.TreeTotal
import Verif.Rbxlx.ValueBack
import Verif.Rbxlx.XmlKept
import Verif.Spec.Binary
import Verif.Spec.Copy
import Verif.Spec.Hex
import Verif.Spec.Rotation
import Verif.Spec.Tree
import Verif.Spec.Xml
import Verif.Spec.XmlDoc
import Verif.Spec.XmlValue
import Verif.Go.FloatConv
import Verif.Json.Model
import Verif.Spec.Json
import Verif.Spec.JsonShape
import Verif.Json.Values
import Verif.Json.Tree
import Verif.Json.Panics
import Verif.Json.NoPanic
import Verif.Props.Json
import Verif.Declare.Model
import Verif.Spec.Declare
import Verif.Spec.DeclareValue
import Verif.Declare.Tree
import Verif.Declare.Values
import Verif.Declare.Main
import Verif.Declare.TypeNames
import Verif.Props.Declare
import Verif.Props.DeclareNames
import Verif.Spec.DecodeBinary
import Verif.Rbxl.DecodeSpec
import Verif.Rbxl.DecodeInv
import Verif.Rbxl.DecodeGroups
import Verif.Rbxl.DecodeTree
import Verif.Props.DecodeBinary
import Verif.Spec.DecodeXml
import Verif.Rbxlx.DecodeSpec
import Verif.Rbxlx.DecodeFinal
import Verif.Props.DecodeXml
import Verif.Rbxl.DecodeOk
import Verif.Props.ConvertXml
import Verif.Props.FreshExamples
import Verif.Props.ConvertBinary
import Verif.Spec.Writer
import Verif.Go.Writer
import Verif.Rbxlx.WriteTo
import Verif.Rbxlx.WriteToLemmas
import Verif.Rbxl.WriteTo
import Verif.Props.Writers
import Verif.Spec.Reader
import Verif.Go.Reader
import Verif.Rbxl.ReadFrom
import Verif.Rbxl.ReadRoot
import Verif.Props.Readers
import Verif.Spec.ByteReader
import Verif.Go.Bufio
import Verif.Rbxlx.ReadIO
import Verif.Rbxlx.ReadSim
import Verif.Rbxlx.ReadSimTag
import Verif.Rbxlx.ReadSimDoc
import Verif.Rbxlx.DecodeFrom
import Verif.Props.XmlReaders
import Verif.Spec.XmlGrammar
import Verif.Rbxlx.GrammarText
import Verif.Rbxlx.GrammarTags
import Verif.Rbxlx.GrammarDoc
import Verif.Rbxlx.GrammarMain
import Verif.Props.XmlGrammar
import Verif.Spec.XmlProperty
import Verif.Rbxlx.PropertyText
import Verif.Rbxlx.PropertyComps
import Verif.Rbxlx.PropertyCut
import Verif.Rbxlx.PropertyValue
import Verif.Props.XmlProperty
import Verif.Rbxlx.Warnings
import Verif.Spec.XmlWarnings
import Verif.Props.XmlWarnings
import Verif.Cmd.Stat
import Verif.Props.Stat
import Verif.Go.Quote
import Verif.Spec.Dump
import Verif.Rbxl.Dump
import Verif.Rbxl.DumpLemmas
import Verif.Rbxl.DumpDecoded
import Verif.Rbxl.DumpText
import Verif.Props.Dump
import Verif.Rbxfile.Text
import Verif.Spec.ValueText
import Verif.Props.ValueText
import Verif.Spec.DecodeWarnings
import Verif.Rbxl.DecodeWarnings
import Verif.Props.DecodeWarnings
import Verif.Spec.DecodePanics
import Verif.Rbxl.PanicArrays
import Verif.Rbxl.PanicFrames
import Verif.Rbxl.CodecExact
import Verif.Props.DecodeExact
import Verif.Spec.EncodePanics
import Verif.Rbxl.EncPanics
import Verif.Cmd.Main
import Verif.Props.Commands
import Verif.Rbxl.EncodeWarnings
import Verif.Props.EncodeWarnings
import Verif.Rbxl.ErrorText
import Verif.Spec.ErrorText
import Verif.Props.ErrorText
import Verif.Rbxl.Simulate
import Verif.Rbxl.Resave
import Verif.Props.Resave
import Verif.Spec.SameTree
import Verif.Rbxl.SameTree
import Verif.Props.SameTree
import Verif.Spec.Settled
import Verif.Rbxlx.StableFloat
import Verif.Rbxlx.DecodeOk
import Verif.Rbxlx.Resave
import Verif.Rbxlx.ResaveTwice
import Verif.Props.XmlResave
import Verif.Spec.SameXml
import Verif.Rbxlx.SameXml
import Verif.Rbxfile.CopyMaps
import Verif.Props.SameXml
import Verif.Spec.FileLayout
import Verif.Rbxl.Layout
import Verif.Props.FileLayout
import Verif.Spec.DeclareSave
import Verif.Declare.Save
import Verif.Props.DeclareSave
import Verif.Spec.XmlFile
import Verif.Rbxlx.XmlLayout
import Verif.Props.XmlLayout
import Verif.Spec.Mentions
import Verif.Rbxfile.Finite
import Verif.Rbxfile.CopyFinite
import Verif.Rbxl.NotTree
import Verif.Json.Finite
import Verif.Props.NotTree
import Verif.Spec.JsonRead
import Verif.Json.Read
import Verif.Json.ReadMain
import Verif.Props.JsonRead
import Verif.Spec.Wire
import Verif.Spec.WireValue
import Verif.Rbxl.Wire
import Verif.Rbxl.WireValue
import Verif.Rbxl.WireRead
import Verif.Props.Wire
import Verif.Spec.JsonForm
import Verif.Json.Form
import Verif.Json.FormRead
import Verif.Props.JsonForm
import Verif.Spec.XmlText
import Verif.Rbxlx.XmlText
import Verif.Props.XmlText
import Verif.Props.WriteOffset
import Verif.Spec.SameJson
import Verif.Rbxlx.Again
import Verif.Json.Again
import Verif.Props.Again
import Verif.Spec.Size
import Verif.Rbxl.Size
import Verif.Rbxlx.Size
import Verif.Props.Size
import Verif.Spec.Effects
import Verif.Rbxl.Local
import Verif.Props.Local
import Verif.Spec.Cut
import Verif.Rbxl.Cut
import Verif.Rbxl.CutValues
import Verif.Props.Cut
import Verif.Spec.Apart
import Verif.Rbxl.Swap
import Verif.Props.Order
import Verif.Spec.XmlIgnored
import Verif.Rbxlx.Ignored
import Verif.Props.XmlIgnored
import Verif.Spec.XmlOrder
import Verif.Props.XmlOrder
import Verif.Spec.XmlReplace
import Verif.Props.XmlReplace
import Verif.Spec.JsonFields
import Verif.Json.Fields
import Verif.Json.FieldsMain
import Verif.Props.JsonFields
import Verif.Props.ConvertJson
import Verif.Props.ConvertJsonBinary
import Verif.Props.JsonResave
import Verif.Props.ConvertXmlJson
import Verif.Props.ConvertBinaryJson
