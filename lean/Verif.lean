import Verif.Examples.Apart
import Verif.Examples.Disk
import Verif.Examples.Separate
import Verif.Examples.World
import Verif.Lemmas.ArrowTypes
import Verif.Lemmas.BigQuery
import Verif.Lemmas.BoxContents
import Verif.Lemmas.Braces
import Verif.Lemmas.Build
import Verif.Lemmas.BuildIn
import Verif.Lemmas.BuildOrder
import Verif.Lemmas.BuildOut
import Verif.Lemmas.BuildPdr
import Verif.Lemmas.Calm
import Verif.Lemmas.ClassDecl
import Verif.Lemmas.Construct
import Verif.Lemmas.Decorator
import Verif.Lemmas.DefaultTemplate
import Verif.Lemmas.Dict
import Verif.Lemmas.Digits
import Verif.Lemmas.Discover
import Verif.Lemmas.Disk
import Verif.Lemmas.Dispatch
import Verif.Lemmas.Eval
import Verif.Lemmas.Footprint
import Verif.Lemmas.FromGraph
import Verif.Lemmas.Graph
import Verif.Lemmas.GraphOut
import Verif.Lemmas.Grow
import Verif.Lemmas.HardCoded
import Verif.Lemmas.Hints
import Verif.Lemmas.InPlace
import Verif.Lemmas.Ints
import Verif.Lemmas.Items
import Verif.Lemmas.Json
import Verif.Lemmas.Keeps
import Verif.Lemmas.Layout
import Verif.Lemmas.Lifecycle
import Verif.Lemmas.Linked
import Verif.Lemmas.Literals
import Verif.Lemmas.Local
import Verif.Lemmas.Locate
import Verif.Lemmas.ModelDoc
import Verif.Lemmas.ModelTable
import Verif.Lemmas.Numpy
import Verif.Lemmas.Ops
import Verif.Lemmas.Order
import Verif.Lemmas.Par
import Verif.Lemmas.ParBuild
import Verif.Lemmas.ParLogic
import Verif.Lemmas.ParOrder
import Verif.Lemmas.ParPdr
import Verif.Lemmas.ParSys
import Verif.Lemmas.Paths
import Verif.Lemmas.Placement
import Verif.Lemmas.ProducerClass
import Verif.Lemmas.Pydantic
import Verif.Lemmas.PythonTypes
import Verif.Lemmas.Rebuild
import Verif.Lemmas.Resolve
import Verif.Lemmas.Reuse
import Verif.Lemmas.Sound
import Verif.Lemmas.Store
import Verif.Lemmas.Template
import Verif.Lemmas.ThreadSys
import Verif.Lemmas.Threads
import Verif.Lemmas.Together
import Verif.Lemmas.Topo
import Verif.Lemmas.Torn
import Verif.Lemmas.TornOps
import Verif.Lemmas.Total
import Verif.Lemmas.TypeSystem
import Verif.Lemmas.TypedBox
import Verif.Lemmas.Views
import Verif.Lemmas.World
import Verif.Lemmas.Written
import Verif.Model.ArrowTypes
import Verif.Model.Base
import Verif.Model.BigQuery
import Verif.Model.BoxHash
import Verif.Model.ClassDecl
import Verif.Model.Connection
import Verif.Model.Construct
import Verif.Model.Decorator
import Verif.Model.Disk
import Verif.Model.Dispatch
import Verif.Model.Format
import Verif.Model.FrozenDict
import Verif.Model.Gcs
import Verif.Model.Graph
import Verif.Model.Hints
import Verif.Model.IntOps
import Verif.Model.Ints
import Verif.Model.Io
import Verif.Model.Json
import Verif.Model.Lifecycle
import Verif.Model.Literals
import Verif.Model.ModelDoc
import Verif.Model.Modules
import Verif.Model.Numpy
import Verif.Model.Out
import Verif.Model.Par
import Verif.Model.Partitions
import Verif.Model.ProducerClass
import Verif.Model.Pydantic
import Verif.Model.PythonTypes
import Verif.Model.Storage
import Verif.Model.Threads
import Verif.Model.Topo
import Verif.Model.Torn
import Verif.Model.TypeVars
import Verif.Model.TypedBox
import Verif.Model.Types
import Verif.Model.Utils
import Verif.Model.Views
import Verif.Model.World
import Verif.Model.WrapExc
import Verif.Props.Arith
import Verif.Props.ArrowTypes
import Verif.Props.Backend
import Verif.Props.BigQuery
import Verif.Props.BigQueryRead
import Verif.Props.BoxHash
import Verif.Props.BoxKeys
import Verif.Props.Build
import Verif.Props.Calendar
import Verif.Props.ClassDecl
import Verif.Props.Connection
import Verif.Props.Construct
import Verif.Props.Decorator
import Verif.Props.DefaultTemplate
import Verif.Props.Discovery
import Verif.Props.Disk
import Verif.Props.Dispatch
import Verif.Props.Executor
import Verif.Props.Fingerprints
import Verif.Props.FrozenDict
import Verif.Props.Gcs
import Verif.Props.HardCoded
import Verif.Props.Hints
import Verif.Props.Ints
import Verif.Props.Layout
import Verif.Props.Lifecycle
import Verif.Props.LiteralCast
import Verif.Props.Literals
import Verif.Props.Locations
import Verif.Props.ModelDoc
import Verif.Props.Modules
import Verif.Props.Numpy
import Verif.Props.Order
import Verif.Props.Out
import Verif.Props.Par
import Verif.Props.Partitions
import Verif.Props.Placement
import Verif.Props.ProducerAccepted
import Verif.Props.ProducerClass
import Verif.Props.Pydantic
import Verif.Props.PythonTypes
import Verif.Props.Race
import Verif.Props.Read
import Verif.Props.Register
import Verif.Props.Resume
import Verif.Props.Reuse
import Verif.Props.Snapshot
import Verif.Props.Sound
import Verif.Props.Stable
import Verif.Props.StorageClass
import Verif.Props.Templates
import Verif.Props.Threads
import Verif.Props.Together
import Verif.Props.TogetherRead
import Verif.Props.Topo
import Verif.Props.Torn
import Verif.Props.TypeEq
import Verif.Props.TypeSystem
import Verif.Props.TypeVars
import Verif.Props.TypedBox
import Verif.Props.Validation
import Verif.Props.Views
import Verif.Props.WrapExc
import Verif.Spec.Arith
import Verif.Spec.ArrowTypes
import Verif.Spec.Backend
import Verif.Spec.BigQuery
import Verif.Spec.Build
import Verif.Spec.Calendar
import Verif.Spec.ClassDecl
import Verif.Spec.Construct
import Verif.Spec.Decorator
import Verif.Spec.Discovery
import Verif.Spec.Disk
import Verif.Spec.Dispatch
import Verif.Spec.Executor
import Verif.Spec.Fingerprints
import Verif.Spec.Gcs
import Verif.Spec.HardCoded
import Verif.Spec.Hints
import Verif.Spec.History
import Verif.Spec.Ints
import Verif.Spec.Layout
import Verif.Spec.Lifecycle
import Verif.Spec.Literals
import Verif.Spec.Location
import Verif.Spec.ModelDoc
import Verif.Spec.Modules
import Verif.Spec.Numpy
import Verif.Spec.Ops
import Verif.Spec.Order
import Verif.Spec.Out
import Verif.Spec.Par
import Verif.Spec.Placement
import Verif.Spec.ProducerClass
import Verif.Spec.Pydantic
import Verif.Spec.PythonTypes
import Verif.Spec.Resume
import Verif.Spec.Reuse
import Verif.Spec.Template
import Verif.Spec.Threads
import Verif.Spec.Together
import Verif.Spec.Torn
import Verif.Spec.TypeEq
import Verif.Spec.TypeSystem
import Verif.Spec.TypeVars
import Verif.Spec.Views
