import Verif.Props.Sse
import Verif.Props.Pipeline
import Verif.Props.Replies
import Verif.Props.Order
import Verif.Props.Failure
import Verif.Props.Lifecycle
import Verif.Props.Identity
import Verif.Props.IdentityHost
import Verif.Props.Routing
import Verif.Props.Attributes
import Verif.Props.Store
import Verif.Props.Once
import Verif.Props.ReplyActions
import Verif.Props.Spans
import Verif.Props.GrpcPath
import Verif.Props.GrpcHost
import Verif.Props.HeaderMaps
import Verif.Props.HeaderPairs
import Verif.Props.JsonScalar
import Verif.Props.Root
import Verif.Props.Legacy
import Verif.Props.Verdict
import Verif.Props.VerdictDemo
import Verif.Props.CelEnv
import Verif.Props.CelEnvDemo
import Verif.Props.Strings
import Verif.Props.Query
import Verif.Props.Converters
import Verif.Props.Progress
import Verif.Props.AttrTypes
import Verif.Props.Cause
import Verif.Props.BodyFeed
import Verif.Props.Document
import Verif.Props.Session
import Verif.Props.Tracker
import Verif.Props.Gate
import Verif.Props.Tracing
import Verif.Props.Services
import Verif.Props.Timer
import Verif.Props.Collect
import Verif.Props.TraceExport
import Verif.Props.Due
import Verif.Props.DueDemo
import Verif.Props.Bindings
import Verif.Props.BindingsDemo
import Verif.Props.Decorated
import Verif.Props.Observability
import Verif.Props.Metrics
import Verif.Props.Request
import Verif.Props.InForce
import Verif.Props.Fate
import Verif.Props.VerdictLater
import Verif.Props.Answers
import Verif.Spec.CelLib
import Verif.Lemmas.CelLib
import Verif.Lemmas.ActingValues
import Verif.Spec.Obliging
import Verif.Props.VerdictHost
import Verif.Props.VerdictHostDemo
import Verif.Props.Wire
import Verif.Props.WireDemo
import Verif.Props.WireRequest
import Verif.Props.WireRequestDemo
import Verif.Props.HostFacts
import Verif.Props.HostFactsDemo
import Verif.Props.Routed
import Verif.Props.RoutedDemo
import Verif.Props.Called
import Verif.Props.CalledDemo
