import Verif.Base
import Verif.Lists.Props
import Verif.Caches.Props
import Verif.Caches.ReqProps
import Verif.OMap.Props
import Verif.Lists.PermProps
import Verif.Sync.Props
import Verif.Sync.MapProps
import Verif.Errors.Props
import Verif.Utils.ReadAllProps
import Verif.Utils.StackProps
import Verif.Ast.Props
import Verif.Test.Props
import Verif.Test.Json
import Verif.Test.JsonProps
import Verif.Ctx.Props
import Verif.Ctx.LogProps
import Verif.Ctx.ValueProps
import Verif.Prom.Props
import Verif.Prom.PrintProps
import Verif.Prom.ReadProps
import Verif.Shutdown.Props
import Verif.Shutdown.SignalProps
import Verif.Storage.Props
import Verif.Config.Props
import Verif.Enc.JsonProps
import Verif.Enc.TypedProps
import Verif.Enc.SafetyProps
import Verif.Enc.ShapeProps
import Verif.Enc.SpaceProps
import Verif.Enc.GrammarSpec
import Verif.Enc.GrammarLemmas
import Verif.Enc.GrammarNum
import Verif.Enc.GrammarProps
import Verif.Api.CallProps
import Verif.Api.TestCall
import Verif.Api.TestProps
import Verif.Http.ClientProps
import Verif.Http.Listen
import Verif.Http.Server
import Verif.Http.ServerProps
import Verif.Openapi.Handler
import Verif.Openapi.FormatProps
import Verif.TestIO.Props
import Verif.Pipe.Props
import Verif.Ws.RpcProps
import Verif.Ws.Wire
import Verif.Ws.TestClient
import Verif.Enc.Paths
import Verif.Enc.PathsProps
import Verif.Enc.Factory
import Verif.Enc.Duration
import Verif.Enc.DurationProps
import Verif.Ctx.Slog
import Verif.Ctx.SlogProps
import Verif.Sync.MapEnc
import Verif.Sync.MapEncProps
import Verif.Ws.Transport
import Verif.Ws.TransportProps
import Verif.Http.Graceful
import Verif.Openapi.Wire
import Verif.Openapi.WireProps
import Verif.Openapi.Examples
import Verif.Openapi.ExamplesProps
import Verif.Example.Model
import Verif.Example.Props
import Verif.Example.Race
import Verif.Sync.Metrics
import Verif.Enc.Compact
import Verif.Ctx.TagJson
import Verif.Ctx.TagJsonProps
import Verif.Ws.Writers
import Verif.Ws.Serve
import Verif.Ws.ServeProps
import Verif.Lists.Heap
import Verif.Lists.HeapProps
import Verif.Lists.Equal
import Verif.Lists.Sort
import Verif.Enc.Ineff
import Verif.Enc.Hooks
import Verif.Enc.Rfc3339
import Verif.Enc.DurText
import Verif.Enc.NullProps
import Verif.Http.CallBody
import Verif.Enc.TimeRead
import Verif.Enc.DurRead
import Verif.Ws.Cut
import Verif.Ws.EndLog
import Verif.Enc.Refuse
import Verif.Ws.Session
import Verif.Openapi.Served
import Verif.Openapi.ServedProps
import Verif.Ws.Inspect
import Verif.Ws.InspectProps
import Verif.Prom.Conc
import Verif.Prom.ConcProps
import Verif.Ws.TestLife
import Verif.Caches.Wait
import Verif.Enc.Keys
import Verif.Api.Isolate
import Verif.OMap.Reenter
import Verif.Test.Contexts
import Verif.Caches.Odd
import Verif.OMap.Odd
import Verif.Config.Shared
import Verif.Ws.TestCtx
import Verif.Storage.Conc
import Verif.Errors.Compare
import Verif.Ws.TestWire
import Verif.Enc.Heap
import Verif.Enc.HeapProps
import Verif.Enc.HeapMarshal
import Verif.Sync.Locked
import Verif.Caches.Conc
import Verif.Http.Bodies
import Verif.Config.Defaults
import Verif.Openapi.Marshallers
import Verif.Prom.Reg
import Verif.TestIO.Shared
import Verif.Sync.Race
import Verif.Sync.RaceProps
import Verif.Sync.Deadlock
import Verif.Http.Wrapped
import Verif.Enc.Native
import Verif.Http.Methods
import Verif.Ws.Told
import Verif.Enc.Utf8
import Verif.Enc.BytesJson
import Verif.Http.Cut
import Verif.Enc.NilNodes
import Verif.Http.Redirect
import Verif.Http.Address
import Verif.Enc.Failing
import Verif.Enc.Again
import Verif.Enc.Versions
import Verif.Api.Skew
import Verif.Ws.Shared
import Verif.Http.Skew
import Verif.Http.Requests
import Verif.Http.Logged
import Verif.Sync.Stall
import Verif.Ws.Skew
import Verif.Http.Dots
import Verif.Caches.Panics
import Verif.Ws.Kept
