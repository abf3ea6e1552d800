import Verif.Props.Access
import Verif.Props.AccessFixed
import Verif.Props.Alloc
import Verif.Props.ArrayFixed
import Verif.Props.Attr
import Verif.Props.Binary
import Verif.Props.Bitwise
import Verif.Props.Borrow
import Verif.Props.BytesField
import Verif.Props.Calls
import Verif.Props.Collections
import Verif.Props.Conformance
import Verif.Props.ConformanceFloat
import Verif.Props.ConformanceInt
import Verif.Props.ConformanceZero
import Verif.Props.Derive
import Verif.Props.Discriminant
import Verif.Props.Documents
import Verif.Props.Fits
import Verif.Props.Float
import Verif.Props.FloatFixed
import Verif.Props.FloatInt
import Verif.Props.Grammar
import Verif.Props.IO
import Verif.Props.Integers
import Verif.Props.IoWrite
import Verif.Props.Json
import Verif.Props.JsonFloats
import Verif.Props.JsonLoose
import Verif.Props.JsonNumbers
import Verif.Props.JsonScratch
import Verif.Props.JsonValue
import Verif.Props.Lossy
import Verif.Props.Machine
import Verif.Props.MapAccess
import Verif.Props.NameTy
import Verif.Props.Numbers
import Verif.Props.Options
import Verif.Props.PackedField
import Verif.Props.Pattern
import Verif.Props.Pointer
import Verif.Props.Portable
import Verif.Props.Rename
import Verif.Props.Report
import Verif.Props.Samples
import Verif.Props.Serde
import Verif.Props.SerdeAny
import Verif.Props.SerdeJson
import Verif.Props.SkipCount
import Verif.Props.SkipField
import Verif.Props.Sneaky
import Verif.Props.Stack
import Verif.Props.Std
import Verif.Props.StdJson
import Verif.Props.StdValue
import Verif.Props.SwapAtFixed
import Verif.Props.SwapAttr
import Verif.Props.SwapAttrFixed
import Verif.Props.SysVec
import Verif.Props.Tagged
import Verif.Props.TaggedFixed
import Verif.Props.Text
import Verif.Props.Trace
import Verif.Props.Types
import Verif.Props.Upgrade
import Verif.Props.Value
import Verif.Props.ValueCmp
import Verif.Props.ValueFixed
import Verif.Props.ZeroAligned
import Verif.Props.ZeroEndian
import Verif.Props.ZeroLayout
import Verif.Props.ZeroMutable
import Verif.Props.ZeroOwned
import Verif.Props.ZeroPacked
import Verif.Props.ZeroPhf
import Verif.Props.ZeroPhfFixed
import Verif.Props.ZeroRef
import Verif.Props.ZeroRefCmp
import Verif.Props.ZeroRefCmpFixed
import Verif.Props.ZeroRobust
import Verif.Props.ZeroSearch
import Verif.Props.ZeroSip
import Verif.Props.ZeroSwapAt
import Verif.Props.ZeroSwiss
import Verif.Props.ZeroSwissFixed
import Verif.Props.ZeroTrie
import Verif.Props.ZeroTrieFixed
import Verif.Audit
