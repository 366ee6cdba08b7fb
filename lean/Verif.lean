import Verif.Res
import Verif.Wire
import Verif.WireSpec
import Verif.WireLemmas
import Verif.ZigZagLemmas
import Verif.PropsWire
import Verif.PropsDebug
import Verif.Io
import Verif.Stream
import Verif.IoLemmas
import Verif.SafeLemmas
import Verif.Prog
import Verif.ProgLemmas
import Verif.RelLemmas
import Verif.RelProg
import Verif.TokSpec
import Verif.TokLemmas
import Verif.PropsRead
import Verif.Abs
import Verif.AbsLemmas
import Verif.BlobOps
import Verif.PropsTok
import Verif.PropsPad
import Verif.WriteSpec
import Verif.WriteCalls
import Verif.WriteLemmas
import Verif.Keeps
import Verif.PropsWrite
import Verif.PropsCopy
import Verif.PropsConv
import Verif.Types
import Verif.TupleSpec
import Verif.De
import Verif.Ser
import Verif.Tree
import Verif.DeSim
import Verif.DeProg
import Verif.DeTop
import Verif.DeErr
import Verif.TreeErr
import Verif.HasType
import Verif.SerLemmas
import Verif.ConvLemmas
import Verif.RoundTrip
import Verif.SerShape
import Verif.PropsSer
import Verif.Pulled
import Verif.Typed
import Verif.TypedOps
import Verif.Budget
import Verif.NeedsUnique
import Verif.Limits
import Verif.PropsDe
import Verif.TreeMono
import Verif.ByField
import Verif.Alike
import Verif.PropsTree
import Verif.Reads
import Verif.ReadsPrim
import Verif.ReadsAccum
import Verif.ReadsField
import Verif.ReadsStruct
import Verif.ReadsSound
import Verif.ReadsComplete
import Verif.PropsReads
import Verif.PropsUnknown
import Verif.PropsValues
import Verif.PropsEnum
import Verif.PropsCompat
import Verif.Tidy
import Verif.PropsOwn
import Verif.Twin
import Verif.TwinDe
import Verif.PropsOwnAny
import Verif.Session
import Verif.PropsSession
import Verif.PropsSticky
import Verif.PropsCommit
import Verif.Retrofit
import Verif.PropsStd
import Verif.PropsMixed
import Verif.Stale
import Verif.PropsSeek
import Verif.Lead
import Verif.PropsFail
import Verif.RepoTests
import Verif.PropsBlob
import Verif.PropsCut
import Verif.PropsCrash
import Verif.PropsBlame
import Verif.PropsUnamb
import Verif.Later
import Verif.PropsAhead
import Verif.PathNames
import Verif.PropsWhere
import Verif.PropsEdit
import Verif.PropsFlat
import Verif.PropsDefault
import Verif.PropsBackward
import Verif.FileSpec
import Verif.PropsFile
import Verif.PropsCompact
import Verif.Strict
import Verif.Junk
import Verif.Cut
import Verif.DocSpec
import Verif.DocLemmas
import Verif.PropsExact
import Verif.PropsText
import Verif.PropsLog
import Verif.PropsRefused
import Verif.PropsAround
import Verif.PropsShift
import Verif.PropsSize
import Verif.Meter
import Verif.MeterDe
import Verif.PropsCalls
import Verif.PropsReset
import Verif.PropsWorld
import Verif.Layout
import Verif.PropsLayout
import Verif.PropsForward
import Verif.Grace
import Verif.PropsGrace
import Verif.PropsUnits
import Verif.PropsDelegate
import Verif.PropsWide
