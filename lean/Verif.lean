import Verif.Model.PathSer
import Verif.Model.QuerySer
import Verif.Model.HeaderSer
import Verif.Model.ReqSer
import Verif.Model.ReqDe
import Verif.Model.RespSer
import Verif.Model.RespDe
import Verif.Model.Router
import Verif.Props.Routing
import Verif.Props.OwnTests
import Verif.Props.Path
import Verif.Props.Query
import Verif.Props.Header
import Verif.Props.Refused
import Verif.Props.Request
import Verif.Props.Response
import Verif.Model.Problem
import Verif.Props.Problem
import Verif.Props.Pool
import Verif.Model.Client
import Verif.Props.Decode
import Verif.Props.Accept
import Verif.Model.ValEq
import Verif.Props.Maps
import Verif.Props.Integrity
import Verif.Props.IntegrityRequest
import Verif.Props.IntegrityResponse
import Verif.Props.Client
import Verif.Model.PoolSystem
import Verif.Model.PoolTimed
import Verif.Props.PoolTimed
import Verif.Spec.PoolTimed
import Verif.Props.Widen
import Verif.Props.Typed
import Verif.Props.PassOn
import Verif.Props.PassBack
import Verif.Props.Chain
import Verif.Props.ProblemCall
import Verif.Props.ProblemCallExamples
import Verif.Props.LimitsResponse
import Verif.Spec.Widen
import Verif.Spec.PassOn
import Verif.Spec.PassBack
import Verif.Spec.Chain
import Verif.Props.PoolAlive
import Verif.Props.PoolSystem
import Verif.Model.Server
import Verif.Props.Server
import Verif.Props.ServerExamples
import Verif.Model.Embed
import Verif.Props.Embed
import Verif.Model.Http
import Verif.Props.EndToEnd
import Verif.Props.Http
import Verif.Props.HttpEndToEnd
import Verif.Props.IntegrityHttp
import Verif.Props.Turns
import Verif.Props.System
import Verif.Props.SystemExamples
import Verif.Props.Exact
import Verif.Props.ExactRequest
import Verif.Props.ExactRequestExamples
import Verif.Props.ExactResponse
import Verif.Props.Transparent
import Verif.Props.TransparentExamples
import Verif.Props.TransparentServer
import Verif.Props.Progress
import Verif.Props.HttpExamples
import Verif.Lemmas.Shape
import Verif.Props.JsonText
import Verif.Spec.Reads
import Verif.Lemmas.ReadBack
import Verif.Lemmas.Reads
import Verif.Props.Reads
import Verif.Props.ReadsServer
import Verif.Spec.Live
import Verif.Lemmas.Live
import Verif.Props.Live
import Verif.Props.LiveExamples
import Verif.Spec.Form
import Verif.Lemmas.Lossy
import Verif.Lemmas.Form
import Verif.Spec.Target
import Verif.Lemmas.Origin
import Verif.Spec.Verdict
import Verif.Lemmas.Dots
import Verif.Props.Target
import Verif.Spec.World
import Verif.Lemmas.World
import Verif.Props.World
import Verif.Props.WorldExamples
import Verif.Spec.Interop
import Verif.Lemmas.Interop
import Verif.Props.Interop
import Verif.Props.InteropExamples
import Verif.Spec.Texts
import Verif.Props.Texts
import Verif.Props.Once
import Verif.Props.OnceExamples
import Verif.Spec.JsonGrammar
import Verif.Lemmas.JsonGrammar
import Verif.Props.JsonGrammar
import Verif.Spec.TargetForms
import Verif.Props.TargetForms
import Verif.Spec.Callee
import Verif.Props.Callee
import Verif.Props.CalleeExamples
import Verif.Spec.SentTarget
import Verif.Props.SentTarget
import Verif.Spec.Errors
import Verif.Props.Errors
import Verif.Spec.Consumed
import Verif.Props.Consumed
import Verif.Props.ConsumedExamples
import Verif.Spec.OpenConns
import Verif.Props.OpenConns
import Verif.Model.FloatStd
import Verif.Lemmas.FloatStd
import Verif.Lemmas.FloatStdText
import Verif.Spec.Floats
import Verif.Props.Floats
import Verif.Spec.Deploy
import Verif.Props.Deploy
import Verif.Spec.Evolve
import Verif.Spec.Exact
import Verif.Spec.Transparent
import Verif.Props.Evolve
import Verif.Spec.FloatPrint
import Verif.Props.FloatPrint
import Verif.Model.Limits
import Verif.Lemmas.Limits
import Verif.Spec.Malformed
import Verif.Spec.Stream
import Verif.Spec.Peer
import Verif.Props.Malformed
import Verif.Props.Limits
import Verif.Props.MalformedExamples
import Verif.Props.Stream
import Verif.Props.StreamExamples
import Verif.Props.Peer
import Verif.Props.PeerExamples
import Verif.Props.Conversation
import Verif.Props.ConversationExamples
import Verif.Props.Landing
import Verif.Props.LandingExamples
import Verif.Props.Told
import Verif.Props.ToldExamples
import Verif.Props.Chunked
import Verif.Props.ChunkedExamples
import Verif.Spec.Restart
import Verif.Props.Restart
import Verif.Spec.RealTime
import Verif.Props.RealTime
import Verif.Props.RealTimeExamples
import Verif.Props.PoolMemory
import Verif.Props.Isolation
import Verif.Props.TimingExamples
import Verif.Props.Local
import Verif.Spec.Lines
import Verif.Props.Lines
import Verif.Spec.Interim
import Verif.Props.Interim
import Verif.Props.InterimExamples
import Verif.Spec.Bodiless
import Verif.Props.Bodiless
import Verif.Props.BodilessExamples
import Verif.Spec.Serial
import Verif.Props.Serial
import Verif.Spec.Expect
import Verif.Props.Expect
import Verif.Props.ExpectExamples
import Verif.Spec.Backoff
import Verif.Lemmas.Backoff
import Verif.Props.Backoff
import Verif.Props.Recovery
import Verif.Spec.Separate
import Verif.Props.Separate
import Verif.Spec.Peak
import Verif.Lemmas.Peak
import Verif.Props.Peak
import Verif.Spec.ServerLife
import Verif.Props.ServerLife
import Verif.Spec.Order
import Verif.Props.Order
import Verif.Props.SameTable
import Verif.Spec.Larger
import Verif.Props.Larger
import Verif.Spec.InTurn
import Verif.Props.InTurn
import Verif.Spec.Load
import Verif.Props.Load
import Verif.Spec.Mount
import Verif.Props.Mount
import Verif.Spec.Anew
import Verif.Props.Anew
import Verif.Spec.Replica
import Verif.Props.Replica
import Verif.Spec.Drained
import Verif.Props.Drained
import Verif.Spec.Alike
import Verif.Props.Alike
import Verif.Spec.Respell
import Verif.Props.Respell
import Verif.Spec.Stricter
import Verif.Props.Stricter
import Verif.Props.AlikeCalls
import Verif.Spec.Work
import Verif.Props.Work
import Verif.Spec.Closing
import Verif.Props.Closing
import Verif.Spec.Commute
import Verif.Props.Commute
import Verif.Spec.Spurious
import Verif.Props.Spurious
import Verif.Spec.Abandon
import Verif.Props.Abandon
