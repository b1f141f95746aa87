import Verif.Prelude
import Verif.Model.AnnotationView
import Verif.Model.AnnotationsText
import Verif.Model.Base64
import Verif.Model.BaseURL
import Verif.Model.Bits
import Verif.Model.Cancel
import Verif.Model.Chunked
import Verif.Model.ChunkedTime
import Verif.Model.CollectorLog
import Verif.Model.CollectorServer
import Verif.Model.Dashboard
import Verif.Model.DashboardScript
import Verif.Model.DeleteSub
import Verif.Model.Demo
import Verif.Model.EmbeddedFile
import Verif.Model.Event
import Verif.Model.EventRegister
import Verif.Model.ExampleOpenTracing
import Verif.Model.ExampleWebapp
import Verif.Model.Float
import Verif.Model.Handler
import Verif.Model.HeaderSlices
import Verif.Model.Html
import Verif.Model.Http
import Verif.Model.ID
import Verif.Model.IDGen
import Verif.Model.Json
import Verif.Model.JsonText
import Verif.Model.Limit
import Verif.Model.Locks
import Verif.Model.MemStats
import Verif.Model.Multi
import Verif.Model.Mutex
import Verif.Model.OpenTracing
import Verif.Model.Pages
import Verif.Model.Persist
import Verif.Model.Printf
import Verif.Model.Python
import Verif.Model.PythonExamples
import Verif.Model.Reading
import Verif.Model.ReadingSteps
import Verif.Model.Recent
import Verif.Model.Recorder
import Verif.Model.RecorderShared
import Verif.Model.Reflect
import Verif.Model.ReflectRich
import Verif.Model.Remote
import Verif.Model.Router
import Verif.Model.SampleData
import Verif.Model.Serve
import Verif.Model.Slices
import Verif.Model.Span
import Verif.Model.Store
import Verif.Model.StoreConc
import Verif.Model.Strconv
import Verif.Model.TimeFmt
import Verif.Model.TimelineLabel
import Verif.Model.TimelinePage
import Verif.Model.TimelineScript
import Verif.Model.TimelineSort
import Verif.Model.Times
import Verif.Model.Trace
import Verif.Model.TraceString
import Verif.Model.TracesMenu
import Verif.Model.TracesScript
import Verif.Model.TreeString
import Verif.Model.Upload
import Verif.Model.ViewModeScript
import Verif.Model.Views
import Verif.Model.WebApp
import Verif.Model.Wire
import Verif.Model.Wrap
import Verif.Spec.AnnotationView
import Verif.Spec.AnnotationsText
import Verif.Spec.Base64
import Verif.Spec.BaseURL
import Verif.Spec.Bits
import Verif.Spec.Cancel
import Verif.Spec.Causal
import Verif.Spec.Chunked
import Verif.Spec.ChunkedOrder
import Verif.Spec.ChunkedTime
import Verif.Spec.CollectorLog
import Verif.Spec.CollectorServer
import Verif.Spec.Dashboard
import Verif.Spec.DashboardRange
import Verif.Spec.DashboardScript
import Verif.Spec.DeleteSub
import Verif.Spec.Demo
import Verif.Spec.Distributed
import Verif.Spec.EmbeddedFile
import Verif.Spec.EndToEnd
import Verif.Spec.Event
import Verif.Spec.EventNumbers
import Verif.Spec.EventPanic
import Verif.Spec.EventRich
import Verif.Spec.EventSize
import Verif.Spec.ExampleOpenTracing
import Verif.Spec.ExampleWebapp
import Verif.Spec.ExportForm
import Verif.Spec.Handler
import Verif.Spec.HeaderSlices
import Verif.Spec.Html
import Verif.Spec.Http
import Verif.Spec.ID
import Verif.Spec.IDGen
import Verif.Spec.JsonText
import Verif.Spec.Limit
import Verif.Spec.Locks
import Verif.Spec.MemStats
import Verif.Spec.MixedClients
import Verif.Spec.Multi
import Verif.Spec.MultiSlices
import Verif.Spec.Numerals
import Verif.Spec.OpenTracing
import Verif.Spec.OpenTracingShown
import Verif.Spec.Pages
import Verif.Spec.Persist
import Verif.Spec.PersistCrash
import Verif.Spec.Printf
import Verif.Spec.Python
import Verif.Spec.PythonExamples
import Verif.Spec.Query
import Verif.Spec.Reading
import Verif.Spec.Recent
import Verif.Spec.RecentTrace
import Verif.Spec.Recorder
import Verif.Spec.RecorderShared
import Verif.Spec.RemoteArrival
import Verif.Spec.Restart
import Verif.Spec.Rfc3339
import Verif.Spec.RouterPaths
import Verif.Spec.SampleData
import Verif.Spec.Serve
import Verif.Spec.Services
import Verif.Spec.Slices
import Verif.Spec.Store
import Verif.Spec.StoreConc
import Verif.Spec.TimelineData
import Verif.Spec.TimelineLabel
import Verif.Spec.TimelinePage
import Verif.Spec.TimelineScript
import Verif.Spec.TimelineSort
import Verif.Spec.Times
import Verif.Spec.TracesMenu
import Verif.Spec.TracesScript
import Verif.Spec.TreeString
import Verif.Spec.Upload
import Verif.Spec.UploadJson
import Verif.Spec.ViewModeScript
import Verif.Spec.Views
import Verif.Spec.WebApp
import Verif.Spec.Wire
import Verif.Spec.WireExtra
import Verif.Spec.WireGrammar
import Verif.Spec.Wrap
import Verif.Proofs.AnnotationView
import Verif.Proofs.AnnotationsText
import Verif.Proofs.Base64
import Verif.Proofs.Base64Spec
import Verif.Proofs.BaseURL
import Verif.Proofs.Bits
import Verif.Proofs.BitsSpec
import Verif.Proofs.Calendar
import Verif.Proofs.Cancel
import Verif.Proofs.Causal
import Verif.Proofs.Chunked
import Verif.Proofs.ChunkedDeadline
import Verif.Proofs.ChunkedFlush
import Verif.Proofs.ChunkedHist
import Verif.Proofs.ChunkedOnce
import Verif.Proofs.ChunkedOrder
import Verif.Proofs.ChunkedProgress
import Verif.Proofs.ChunkedSlow
import Verif.Proofs.ChunkedTime
import Verif.Proofs.CollectorLog
import Verif.Proofs.CollectorServer
import Verif.Proofs.CollectorServerWork
import Verif.Proofs.Dashboard
import Verif.Proofs.DashboardScript
import Verif.Proofs.DeleteSub
import Verif.Proofs.Demo
import Verif.Proofs.Distributed
import Verif.Proofs.EmbeddedFile
import Verif.Proofs.EndToEnd
import Verif.Proofs.Event
import Verif.Proofs.EventFlat
import Verif.Proofs.EventLibrary
import Verif.Proofs.EventNested
import Verif.Proofs.EventNumbers
import Verif.Proofs.EventPanic
import Verif.Proofs.EventRich
import Verif.Proofs.EventRichRead
import Verif.Proofs.EventSize
import Verif.Proofs.EventSpan
import Verif.Proofs.EventTexts
import Verif.Proofs.ExampleOpenTracing
import Verif.Proofs.ExampleWebapp
import Verif.Proofs.ExportForm
import Verif.Proofs.Exporting
import Verif.Proofs.Float
import Verif.Proofs.Forest
import Verif.Proofs.Handler
import Verif.Proofs.HeaderSlices
import Verif.Proofs.Html
import Verif.Proofs.Http
import Verif.Proofs.ID
import Verif.Proofs.IDGen
import Verif.Proofs.Json
import Verif.Proofs.JsonGrammar
import Verif.Proofs.JsonNumber
import Verif.Proofs.JsonSound
import Verif.Proofs.JsonText
import Verif.Proofs.Limit
import Verif.Proofs.Links
import Verif.Proofs.Locks
import Verif.Proofs.MemStats
import Verif.Proofs.MixedClients
import Verif.Proofs.MixedEvents
import Verif.Proofs.Multi
import Verif.Proofs.MultiSlices
import Verif.Proofs.MultiSlicesRun
import Verif.Proofs.Mutex
import Verif.Proofs.Numerals
import Verif.Proofs.OpenTracing
import Verif.Proofs.OpenTracingLogs
import Verif.Proofs.OpenTracingShown
import Verif.Proofs.Pages
import Verif.Proofs.Persist
import Verif.Proofs.PersistCrash
import Verif.Proofs.PersistEvery
import Verif.Proofs.Pointer
import Verif.Proofs.Printf
import Verif.Proofs.ProgramCrash
import Verif.Proofs.Python
import Verif.Proofs.PythonEvent
import Verif.Proofs.PythonExamples
import Verif.Proofs.PythonTracer
import Verif.Proofs.PythonTw
import Verif.Proofs.Query
import Verif.Proofs.Reading
import Verif.Proofs.ReadingGrow
import Verif.Proofs.ReadingSteps
import Verif.Proofs.Recent
import Verif.Proofs.RecentTrace
import Verif.Proofs.Recorder
import Verif.Proofs.RecorderShared
import Verif.Proofs.ReflectDec
import Verif.Proofs.ReflectKeys
import Verif.Proofs.ReflectStruct
import Verif.Proofs.Remote
import Verif.Proofs.RemoteArrival
import Verif.Proofs.Restart
import Verif.Proofs.RestartCollect
import Verif.Proofs.RestartPlace
import Verif.Proofs.RestartRead
import Verif.Proofs.RestartShown
import Verif.Proofs.RestartTree
import Verif.Proofs.Rfc3339
import Verif.Proofs.Router
import Verif.Proofs.RouterPaths
import Verif.Proofs.SampleData
import Verif.Proofs.SampleErrors
import Verif.Proofs.Serve
import Verif.Proofs.Server
import Verif.Proofs.Services
import Verif.Proofs.Slices
import Verif.Proofs.SlicesRun
import Verif.Proofs.Span
import Verif.Proofs.StoreAbs
import Verif.Proofs.StoreConc
import Verif.Proofs.StoreHist
import Verif.Proofs.StoreInv
import Verif.Proofs.StoreTraces
import Verif.Proofs.StoreView
import Verif.Proofs.Strconv
import Verif.Proofs.TimelinePage
import Verif.Proofs.TimelineScript
import Verif.Proofs.TimelineSort
import Verif.Proofs.Times
import Verif.Proofs.TracesMenu
import Verif.Proofs.TracesScript
import Verif.Proofs.TreeString
import Verif.Proofs.Unreadable
import Verif.Proofs.Upload
import Verif.Proofs.UploadJson
import Verif.Proofs.UploadMany
import Verif.Proofs.Utf8
import Verif.Proofs.ViewModeScript
import Verif.Proofs.Views
import Verif.Proofs.WebApp
import Verif.Proofs.Wire
import Verif.Proofs.WireExtra
import Verif.Proofs.WireGrammar
import Verif.Proofs.Wrap
import Verif.Proofs.WriteReturns
import Verif.Properties.AnnotationView
import Verif.Properties.AnnotationsText
import Verif.Properties.BaseURL
import Verif.Properties.Cancel
import Verif.Properties.Causal
import Verif.Properties.Chunked
import Verif.Properties.ChunkedOrder
import Verif.Properties.ChunkedTime
import Verif.Properties.CollectorLog
import Verif.Properties.CollectorServer
import Verif.Properties.Dashboard
import Verif.Properties.DashboardRange
import Verif.Properties.DashboardScript
import Verif.Properties.DeleteSub
import Verif.Properties.Demo
import Verif.Properties.Distributed
import Verif.Properties.EmbeddedFile
import Verif.Properties.EndToEnd
import Verif.Properties.Event
import Verif.Properties.EventFlat
import Verif.Properties.EventNumbers
import Verif.Properties.EventPanic
import Verif.Properties.EventRegister
import Verif.Properties.EventRich
import Verif.Properties.EventSize
import Verif.Properties.EventTimes
import Verif.Properties.ExampleOpenTracing
import Verif.Properties.ExampleWebapp
import Verif.Properties.ExportForm
import Verif.Properties.Exporting
import Verif.Properties.Handler
import Verif.Properties.HandlerPanic
import Verif.Properties.HeaderSlices
import Verif.Properties.Html
import Verif.Properties.Http
import Verif.Properties.HttpAnnotations
import Verif.Properties.IDGen
import Verif.Properties.Identifiers
import Verif.Properties.JsonText
import Verif.Properties.Limit
import Verif.Properties.Links
import Verif.Properties.Locks
import Verif.Properties.MemStats
import Verif.Properties.MixedClients
import Verif.Properties.Multi
import Verif.Properties.MultiSlices
import Verif.Properties.Numerals
import Verif.Properties.OpenTracing
import Verif.Properties.OpenTracingShown
import Verif.Properties.PageCrash
import Verif.Properties.Pages
import Verif.Properties.Persist
import Verif.Properties.PersistCrash
import Verif.Properties.PersistEvery
import Verif.Properties.Pointer
import Verif.Properties.Printf
import Verif.Properties.ProgramCrash
import Verif.Properties.ProgramPage
import Verif.Properties.Python
import Verif.Properties.PythonEvent
import Verif.Properties.PythonExamples
import Verif.Properties.Reading
import Verif.Properties.ReadingSteps
import Verif.Properties.Recent
import Verif.Properties.RecentTrace
import Verif.Properties.Recorder
import Verif.Properties.RecorderShared
import Verif.Properties.Remote
import Verif.Properties.RemoteArrival
import Verif.Properties.Restart
import Verif.Properties.Rfc3339
import Verif.Properties.Router
import Verif.Properties.RouterPaths
import Verif.Properties.SampleData
import Verif.Properties.Serve
import Verif.Properties.Services
import Verif.Properties.Slices
import Verif.Properties.Store
import Verif.Properties.StoreConc
import Verif.Properties.TimelineLabel
import Verif.Properties.TimelinePage
import Verif.Properties.TimelineScript
import Verif.Properties.TimelineSort
import Verif.Properties.Times
import Verif.Properties.TraceString
import Verif.Properties.TracesMenu
import Verif.Properties.TracesScript
import Verif.Properties.TreeString
import Verif.Properties.Unreadable
import Verif.Properties.Upload
import Verif.Properties.UploadJson
import Verif.Properties.UploadMany
import Verif.Properties.ViewModeScript
import Verif.Properties.Views
import Verif.Properties.WebApp
import Verif.Properties.Wire
import Verif.Properties.WireExtra
import Verif.Properties.WireGrammar
import Verif.Properties.Wrap
