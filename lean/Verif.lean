import Verif.Model.Scalar
import Verif.Model.Common
import Verif.Model.Value
import Verif.Model.Obj
import Verif.Model.Reflect
import Verif.Spec.Typing
import Verif.Spec.Parts
import Verif.Lemmas.Order
import Verif.Lemmas.BTree
import Verif.Lemmas.Typing
import Verif.Lemmas.FromReflect
import Verif.Lemmas.ToValue
import Verif.Lemmas.RoundTrip
import Verif.Lemmas.RoundTripExact
import Verif.Lemmas.Sound
import Verif.Lemmas.Demo
import Verif.Lemmas.SelfConv
import Verif.Props.ValueOrder
import Verif.Props.RoundTrip
import Verif.Lemmas.Patch
import Verif.Lemmas.PatchIdem
import Verif.Lemmas.PatchSelf
import Verif.Lemmas.PatchEq
import Verif.Lemmas.ReflectEq
import Verif.Lemmas.ReflectEqLaws
import Verif.Lemmas.ReflectEqAgree
import Verif.Lemmas.ReflectEqExtra
import Verif.Lemmas.ReflectEqExact
import Verif.Props.Patch
import Verif.Props.ReflectEq
import Verif.Model.Path
import Verif.Spec.Path
import Verif.Spec.Iter
import Verif.Lemmas.Path
import Verif.Props.Path
import Verif.Model.Containers
import Verif.Spec.Containers
import Verif.Lemmas.Containers
import Verif.Props.Containers
import Verif.Props.Iterators
import Verif.Model.TypeInfo
import Verif.Spec.TypeInfo
import Verif.Lemmas.TypeInfo
import Verif.Props.TypeInfo
import Verif.Model.Cache
import Verif.Lemmas.Cache
import Verif.Lemmas.CachePanic
import Verif.Props.Cache
import Verif.Props.CachePanic
import Verif.Model.TypePath
import Verif.Spec.TypePath
import Verif.Lemmas.Align
import Verif.Lemmas.TypePath
import Verif.Props.TypePath
import Verif.Model.Default
import Verif.Spec.Default
import Verif.Lemmas.Default
import Verif.Lemmas.DefaultConv
import Verif.Lemmas.DefaultExact
import Verif.Props.Default
import Verif.Spec.Views
import Verif.Lemmas.Views
import Verif.Props.Views
import Verif.Model.Visit
import Verif.Spec.Visit
import Verif.Lemmas.Visit
import Verif.Props.Visit
import Verif.Model.Access
import Verif.Spec.Access
import Verif.Lemmas.Access
import Verif.Props.Access
import Verif.Model.Duration
import Verif.Spec.Duration
import Verif.Props.Duration
import Verif.Model.Names
import Verif.Spec.Names
import Verif.Lemmas.Names
import Verif.Props.Names
import Verif.Props.Pretty
import Verif.Spec.Convert
import Verif.Lemmas.Convert
import Verif.Props.Convert
import Verif.Spec.Patch
import Verif.Lemmas.PatchSpec
import Verif.Props.PatchSpec
import Verif.Spec.SelfConv
import Verif.Spec.Compare
import Verif.Lemmas.SelfConvExact
import Verif.Model.Mut
import Verif.Spec.Mut
import Verif.Lemmas.Mut
import Verif.Props.Mut
import Verif.Model.Panic
import Verif.Spec.Panic
import Verif.Lemmas.Panic
import Verif.Props.Panic
import Verif.Model.Extract
import Verif.Lemmas.Extract
import Verif.Props.Extract
import Verif.Model.Meta
import Verif.Props.Meta
import Verif.Model.Debug
import Verif.Props.Debug
import Verif.Model.TypeView
import Verif.Spec.TypeView
import Verif.Props.TypeView
import Verif.Model.NodeId
import Verif.Spec.NodeId
import Verif.Lemmas.NodeId
import Verif.Props.NodeId
import Verif.Model.With
import Verif.Spec.With
import Verif.Lemmas.With
import Verif.Props.With
import Verif.Model.Foreign
import Verif.Spec.Foreign
import Verif.Props.Foreign
import Verif.Model.Serde
import Verif.Spec.Serde
import Verif.Lemmas.Serde
import Verif.Lemmas.Untrusted
import Verif.Props.Serde
import Verif.Model.SerdeType
import Verif.Spec.SerdeType
import Verif.Lemmas.Codec
import Verif.Lemmas.WireNav
import Verif.Props.SerdeType
import Verif.Spec.PatchSelf
import Verif.Lemmas.PatchSelfExact
import Verif.Lemmas.PatchFull
import Verif.Lemmas.PatchFullValue
import Verif.Props.PatchSelf
import Verif.Model.Hygiene
import Verif.Lemmas.Hygiene
import Verif.Props.Hygiene
import Verif.Props.GetAt
import Verif.Model.Attrs
import Verif.Spec.Attrs
import Verif.Lemmas.Attrs
import Verif.Props.Attrs
import Verif.Props.Derive
import Verif.Spec.Equal
import Verif.Lemmas.Equal
import Verif.Props.Equal
import Verif.Props.Frames
import Verif.Spec.Unseen
import Verif.Model.Ops
import Verif.Lemmas.Unseen
import Verif.Lemmas.UnseenMore
import Verif.Lemmas.ToValueInj
import Verif.Props.Unseen
import Verif.Props.Ops
import Verif.Model.Speedy
import Verif.Spec.Speedy
import Verif.Lemmas.Speedy
import Verif.Lemmas.SpeedyLe
import Verif.Props.Speedy
import Verif.Model.TypeAtDefault
import Verif.Spec.DefaultPath
import Verif.Lemmas.DefaultPath
import Verif.Props.DefaultPath
import Verif.Spec.Edit
import Verif.Lemmas.Kids
import Verif.Lemmas.Edit
import Verif.Props.Edit
import Verif.Model.Into
import Verif.Props.Into
import Verif.Spec.Address
import Verif.Lemmas.Address
import Verif.Props.Address
import Verif.Model.PathEq
import Verif.Spec.Interchange
import Verif.Lemmas.Canon
import Verif.Lemmas.CanonOps
import Verif.Lemmas.Interchange
import Verif.Props.Interchange
import Verif.Spec.PatchHistory
import Verif.Lemmas.PatchHistory
import Verif.Lemmas.PatchCover
import Verif.Props.PatchHistory
import Verif.Model.DebugDeep
import Verif.Spec.DebugDeep
import Verif.Lemmas.DebugDeep
import Verif.Props.DebugDeep
import Verif.Spec.StandIn
import Verif.Lemmas.StandIn
import Verif.Props.StandIn
import Verif.Spec.Versions
import Verif.Lemmas.Versions
import Verif.Props.Versions
import Verif.Spec.WriteBack
import Verif.Lemmas.WriteBack
import Verif.Props.WriteBack
import Verif.Spec.SerdeExact
import Verif.Spec.SerdeTypeExact
import Verif.Lemmas.SerdeExact
import Verif.Lemmas.SerdeTypeExact
import Verif.Props.SerdeExact
import Verif.Props.SerdeTypeExact
import Verif.Spec.SpeedyExact
import Verif.Lemmas.SpeedyExact
import Verif.Props.SpeedyExact
import Verif.Model.WireDefault
import Verif.Spec.WireDefault
import Verif.Lemmas.WireDefault
import Verif.Props.WireDefault
import Verif.Conformance.RepoTests
import Verif.Conformance.InlineTests
import Verif.Spec.VisitAny
import Verif.Lemmas.VisitAny
import Verif.Lemmas.VisitCopy
import Verif.Props.VisitAny
import Verif.Spec.VisitPath
import Verif.Lemmas.VisitPath
import Verif.Props.VisitPath
import Verif.Spec.VisitEdit
import Verif.Lemmas.VisitEdit
import Verif.Props.VisitEdit
import Verif.Lemmas.PatchTwice
import Verif.Model.TypeEq
import Verif.Spec.TypeEq
import Verif.Lemmas.HashFree
import Verif.Lemmas.TypeEq
import Verif.Lemmas.TypeEqUse
import Verif.Props.TypeEq
import Verif.Model.BuildFull
import Verif.Spec.BuildFull
import Verif.Lemmas.BuildFull
import Verif.Props.BuildFull
import Verif.Spec.Rename
import Verif.Lemmas.Rename
import Verif.Props.StoredType
import Verif.Conformance.DescriptorTests
import Verif.Spec.Suits
import Verif.Lemmas.Suits
import Verif.Props.Suits
import Verif.Lemmas.RenameVisit
import Verif.Props.StoredVisit
import Verif.Lemmas.Retains
import Verif.Props.Retains
import Verif.Model.Impl
import Verif.Spec.Impl
import Verif.Lemmas.Impl
import Verif.Props.Impl
import Verif.Model.ImplFrom
import Verif.Spec.ImplFrom
import Verif.Lemmas.ImplFrom
import Verif.Props.ImplFrom
import Verif.Model.ImplPatch
import Verif.Spec.ImplPatch
import Verif.Lemmas.ImplPatch
import Verif.Props.ImplPatch
import Verif.Spec.ImplSound
import Verif.Lemmas.ImplSound
import Verif.Props.ImplSound
import Verif.Model.ImplVisit
import Verif.Spec.ImplVisit
import Verif.Lemmas.ImplVisit
import Verif.Lemmas.ImplVisitEnd
import Verif.Props.ImplVisit
import Verif.Model.ImplMut
import Verif.Spec.ImplMut
import Verif.Lemmas.ImplMut
import Verif.Props.ImplMut
import Verif.Model.ImplDebug
import Verif.Spec.ImplDebug
import Verif.Lemmas.ImplDebug
import Verif.Props.ImplDebug
import Verif.Model.ImplTyped
import Verif.Spec.ImplTyped
import Verif.Props.ImplTyped
