import Verif.Props.Ring
import Verif.Props.Core
import Verif.Props.Stringer
import Verif.Props.Mutex
import Verif.Props.Heap
import Verif.Props.SnapshotFate
import Verif.Props.Filter
import Verif.Props.Stats
import Verif.Props.StatsHeap
import Verif.Props.StatsShared
import Verif.Props.Search
import Verif.Props.Wrap
import Verif.Props.Prefix
import Verif.Props.RegionNames
import Verif.Props.Collect
import Verif.Props.Publish
import Verif.Props.Overlap
import Verif.Wrap.Args
import Verif.Props.Broker
import Verif.Props.Multi
import Verif.Props.URL
import Verif.Props.Util
import Verif.Props.Render
import Verif.Props.Client
import Verif.Props.Middleware
import Verif.Props.SSEText
import Verif.Props.StreamHandler
import Verif.Props.Server
import Verif.Props.Topline
import Verif.Props.NetTraces
import Verif.Props.Lock
import Verif.Props.LockUser
import Verif.Props.LockFair
import Verif.Props.StreamTold
import Verif.Props.Rates
import Verif.Props.Humanize
import Verif.Props.StreamClient
import Verif.Props.CmdStream
import Verif.Cmd.Pipeline
import Verif.Props.Pipeline
import Verif.Props.CmdSearch
import Verif.Props.Counters
import Verif.Props.LogLines
import Verif.Props.Once
import Verif.Props.During
import Verif.Props.Page
import Verif.Props.PageCounts
import Verif.Props.EventText
import Verif.Props.Form
import Verif.Wrap.Easy
import Verif.Props.Easy
import Verif.Race.Model
import Verif.Race.Spec
import Verif.Race.Lemmas
import Verif.Race.Inv
import Verif.Props.Race
import Verif.Props.Shared
import Verif.Props.StreamEnd
import Verif.Props.Ulid
import Verif.Props.Uris
import Verif.Props.Numbers
import Verif.Props.Highlight
import Verif.Props.SearchEnd
import Verif.Props.Assets
import Verif.Props.Config
import Verif.Props.Age
import Verif.Props.Boundaries
import Verif.Props.Exact2
import Verif.Props.LinkTo
import Verif.Props.LinksExact
import Verif.Props.Apart
import Verif.Props.ServerFields
import Verif.Props.Gather
import Verif.Props.Main
import Verif.Props.MiddlewareEnd
import Verif.Props.Shown
import Verif.Props.MultiExact
import Verif.Props.Memory
import Verif.Props.Collectors
import Verif.Props.Behind
import Verif.Props.Looking
import Verif.Props.Timeline
import Verif.Props.LogFirst
import Verif.Props.Marks
import Verif.Props.Nested
import Verif.Props.Use
import Verif.Props.DebugInfo
import Verif.Props.PageEnd
import Verif.Props.Clock
import Verif.Props.SourceLink
import Verif.Props.Output
import Verif.Props.Own
import Verif.Props.OwnCopies
import Verif.Props.RequestText
import Verif.Props.FilterText
import Verif.Props.Seconds
import Verif.Props.UrisExact
import Verif.Props.Handling
import Verif.Props.StreamRequest
import Verif.Props.StreamLines
import Verif.Props.Flags
import Verif.Props.Searching
import Verif.Props.Tight
import Verif.Props.Using
import Verif.Props.Exact3
import Verif.Props.Feedback
import Verif.Props.FeedbackExact
import Verif.Props.CmdTracing
import Verif.Props.Watching
import Verif.Props.SearchLog
import Verif.Props.ServedSearch
import Verif.Props.ServedStream
import Verif.Props.ServedLong
import Verif.Props.StreamLog
import Verif.Props.Where
import Verif.Props.StreamTracing
import Verif.Props.LetsGo
import Verif.Props.LetsGoProgram
import Verif.Props.Released
import Verif.Props.BrokerCases
import Verif.Props.WebCases
import Verif.Props.Asking
import Verif.Props.AskingNet
import Verif.Props.Busy
import Verif.Props.Lifetime
import Verif.Props.Agree
import Verif.Props.Grouping
import Verif.Props.SummaryNet
import Verif.Props.Duplicates
import Verif.Props.Outage
import Verif.Props.Circle
import Verif.RepoTests
