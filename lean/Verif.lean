import Verif.Dbsp.ZSet
import Verif.Dbsp.ZSetLemmas
import Verif.Dbsp.Op
import Verif.Dbsp.OpLemmas
import Verif.Dbsp.Join
import Verif.Dbsp.Graph
import Verif.Dbsp.Rewrite
import Verif.Spec.Sum
import Verif.Dbsp.JoinLemmas
import Verif.Pipeline.New
import Verif.Dbsp.StagesMean
import Verif.Dbsp.SpecLemmas
import Verif.Dbsp.PipeLemmas
import Verif.Dbsp.MoreLemmas
import Verif.Dbsp.ChainLemmas
import Verif.Props.ZSet
import Verif.Dbsp.PropLemmas
import Verif.Props.Operators
import Verif.Dbsp.SnapLemmas
import Verif.Dbsp.DistinctLemmas
import Verif.Props.Exec
import Verif.Util.Assoc
import Verif.Pipeline.Adaptor
import Verif.Pipeline.Eval
import Verif.Spec.Live
import Verif.Pipeline.AdaptorLemmas
import Verif.Spec.Writes
import Verif.Pipeline.ReconLemmas
import Verif.Pipeline.RunLemmas
import Verif.Controller.Reconcile
import Verif.Controller.Lemmas
import Verif.Controller.SyncLemmas
import Verif.Pipeline.HistLemmas
import Verif.Props.Pipeline
import Verif.Props.Quiet
import Verif.Props.Control
import Verif.Json.Basic
import Verif.Json.Key
import Verif.Spec.Json
import Verif.Json.KeyLemmas
import Verif.Props.Document
import Verif.Json.Patch
import Verif.Spec.Patch
import Verif.Json.PatchLemmas
import Verif.Json.Object
import Verif.Controller.Target
import Verif.Json.ObjectLemmas
import Verif.Json.PathLemmas
import Verif.Controller.TargetLemmas
import Verif.Props.Patch
import Verif.Controller.Secret
import Verif.Props.Object
import Verif.Expr.Basic
import Verif.Expr.Eval
import Verif.Expr.Lemmas
import Verif.Expr.Path
import Verif.Expr.Marshal
import Verif.Spec.Expr
import Verif.Props.Expr
import Verif.Expr.MarshalLemmas
import Verif.Props.ExprData
import Verif.Cache.Group
import Verif.Cache.GroupLemmas
import Verif.Cache.RaceLemmas
import Verif.Cache.Race
import Verif.Cache.StepLemmas
import Verif.Cache.InvLemmas
import Verif.Cache.ViewLemmas
import Verif.Spec.Cache
import Verif.Cache.View
import Verif.Cache.Client
import Verif.Controller.Upsert
import Verif.Props.Group
import Verif.Props.Cache
import Verif.Props.Client
import Verif.Props.Upsert
import Verif.Reconciler.Predicate
import Verif.Reconciler.Source
import Verif.Spec.Predicate
import Verif.Spec.Source
import Verif.Reconciler.SourceLemmas
import Verif.Props.Predicate
import Verif.Props.Source
import Verif.Auth.Rbac
import Verif.Auth.Token
import Verif.Spec.Auth
import Verif.Auth.Lemmas
import Verif.Props.Auth
import Verif.Apiserver.Registry
import Verif.Apiserver.Storage
import Verif.Spec.Apiserver
import Verif.Apiserver.RegistryLemmas
import Verif.Apiserver.StorageLemmas
import Verif.Props.Apiserver
import Verif.Operator.Status
import Verif.Operator.Kinds
import Verif.Operator.Lifecycle
import Verif.Operator.Pipeline
import Verif.Spec.Operator
import Verif.Operator.LifecycleLemmas
import Verif.Props.Status
import Verif.Props.Kinds
import Verif.Props.Lifecycle
import Verif.Props.Spec
import Verif.Controller.EndLemmas
import Verif.Props.EndToEnd
import Verif.Expr.CanonLemmas
import Verif.Pipeline.JsonOp
import Verif.Spec.JsonPipeline
import Verif.Pipeline.JsonOpLemmas
import Verif.Json.SortLemmas
import Verif.Props.JsonPipeline
import Verif.Spec.Rows
import Verif.Pipeline.RowLemmas
import Verif.Props.Rows
import Verif.Spec.Defined
import Verif.Dbsp.DomLemmas
import Verif.Props.Defined
import Verif.Spec.ListPipeline
import Verif.Pipeline.ListLemmas
import Verif.Props.ListPipeline
import Verif.Operator.Loop
import Verif.Spec.Loop
import Verif.Operator.LoopLemmas
import Verif.Props.Loop
import Verif.Props.Views
import Verif.Spec.Patcher
import Verif.Props.Patcher
import Verif.Spec.ConfigDep
import Verif.Props.ConfigDep
import Verif.Props.JoinPatcher
import Verif.Spec.SvcHealth
import Verif.Props.SvcHealth
import Verif.Spec.PodHealth
import Verif.Props.PodHealth
import Verif.Props.ServiceHealth
import Verif.Spec.SvcView
import Verif.Props.SvcView
import Verif.Pipeline.FamilyLemmas
import Verif.Spec.EpView
import Verif.Props.EpView
import Verif.Spec.ExprLit
import Verif.Expr.LitLemmas
import Verif.Props.ExprLit
import Verif.Spec.EpOperator
import Verif.Props.EpOperator
import Verif.Reconciler.OneShot
import Verif.Props.OneShot
import Verif.Apiserver.Table
import Verif.Spec.Table
import Verif.Props.Table
import Verif.Visualize.Graph
import Verif.Spec.Graph
import Verif.Props.Graph
import Verif.Props.Drift
import Verif.Cache.Discovery
import Verif.Props.Discovery
import Verif.Manager.Manager
import Verif.Props.Manager
import Verif.Auth.Command
import Verif.Auth.CommandLemmas
import Verif.Spec.Command
import Verif.Props.Command
import Verif.Operator.Errors
import Verif.Spec.Errors
import Verif.Operator.ErrorsLemmas
import Verif.Operator.ErrorsBase
import Verif.Operator.ErrorsShown
import Verif.Operator.ErrorsSettle
import Verif.Operator.ErrorsPast
import Verif.Props.Errors
import Verif.Spec.ChainOnce
import Verif.Dbsp.LiftLemmas
import Verif.Apiserver.OpenApi
import Verif.Spec.OpenApi
import Verif.Apiserver.OpenApiLemmas
import Verif.Apiserver.TypesLemmas
import Verif.Props.OpenApi
import Verif.Dbsp.Declared
import Verif.Spec.Declared
import Verif.Dbsp.DeclaredLemmas
import Verif.Props.Declared
import Verif.Dbsp.Heap
import Verif.Spec.Heap
import Verif.Dbsp.HeapLemmas
import Verif.Dbsp.HeapOpLemmas
import Verif.Dbsp.HeapRunLemmas
import Verif.Dbsp.HeapGraphLemmas
import Verif.Props.Heap
import Verif.Reconciler.Periodic
import Verif.Spec.Periodic
import Verif.Reconciler.PeriodicLemmas
import Verif.Props.Periodic
import Verif.Pipeline.GatherFamilyLemmas
import Verif.Spec.EpGather
import Verif.Props.EpGather
import Verif.Props.EpGatherOp
import Verif.Dbsp.NodeIds
import Verif.Dbsp.NodeIdLemmas
import Verif.Dbsp.NodeIdRep
import Verif.Dbsp.NodeIdRules
import Verif.Dbsp.NodeIdExec
import Verif.Spec.NodeIds
import Verif.Props.NodeIds
import Verif.Auth.Keys
import Verif.Apiserver.Start
import Verif.Spec.Start
import Verif.Props.Start
import Verif.Operator.PatchLoop
import Verif.Spec.PatchLoop
import Verif.Operator.PatchLoopLemmas
import Verif.Operator.PatchLoopRest
import Verif.Props.PatchLoop
import Verif.Operator.PatchJson
import Verif.Spec.PatchJson
import Verif.Operator.PatchJsonLemmas
import Verif.Props.PatchConfigDep
import Verif.Props.PatchEndless
import Verif.Json.ViewObject
import Verif.Props.ViewObject
import Verif.Spec.Annotator
import Verif.Operator.AnnotatorLemmas
import Verif.Props.Annotator
import Verif.Operator.AnnotatorEndlessLemmas
import Verif.Props.AnnotatorEndless
import Verif.Cache.Mapper
import Verif.Props.Mapper
import Verif.Dbsp.SmallOps
import Verif.Props.SmallOps
import Verif.Spec.PodAnnotator
import Verif.Operator.PodAnnotatorLemmas
import Verif.Operator.PodEndlessLemmas
import Verif.Props.PodAnnotator
import Verif.Props.PodEndless
import Verif.Cache.HeapCache
import Verif.Spec.HeapCache
import Verif.Cache.HeapObjLemmas
import Verif.Cache.HeapCacheLemmas
import Verif.Props.HeapCache
import Verif.Pipeline.HeapConvert
import Verif.Spec.HeapConvert
import Verif.Pipeline.HeapConvertLemmas
import Verif.Props.HeapConvert
import Verif.Pipeline.HeapEmit
import Verif.Spec.HeapEmit
import Verif.Pipeline.HeapEmitLemmas
import Verif.Props.HeapEmit
import Verif.Pipeline.HeapSync
import Verif.Spec.HeapSync
import Verif.Pipeline.HeapSyncLemmas
import Verif.Props.HeapSync
