import Verif.Model.AesGcm
import Verif.Model.Alloc
import Verif.Model.Bilinear
import Verif.Model.Codec
import Verif.Model.Engine
import Verif.Model.Errors
import Verif.Model.Ffi
import Verif.Model.Hybrid
import Verif.Model.Json
import Verif.Model.Lib
import Verif.Model.Msp
import Verif.Model.Parse
import Verif.Model.ParseStack
import Verif.Model.Points
import Verif.Model.Policy
import Verif.Model.Py
import Verif.Model.RandomScalar
import Verif.Model.RepoBench
import Verif.Model.RepoBytesTests
import Verif.Model.RepoFfiTests
import Verif.Model.RepoFileTests
import Verif.Model.RepoJsTests
import Verif.Model.RepoPolicyTests
import Verif.Model.RepoPyDemo
import Verif.Model.RepoPyNotebook
import Verif.Model.RepoTests
import Verif.Model.Res
import Verif.Model.Scheme
import Verif.Model.Shake
import Verif.Model.Show
import Verif.Model.Wasm
import Verif.Proofs.AesGcm
import Verif.Proofs.BaseField
import Verif.Proofs.Basic
import Verif.Proofs.Builds
import Verif.Proofs.CipherForge
import Verif.Proofs.CipherSecrecy
import Verif.Proofs.Codec
import Verif.Proofs.CodecKeys
import Verif.Proofs.Crafted
import Verif.Proofs.Engine
import Verif.Proofs.Ffi
import Verif.Proofs.FfiCalls
import Verif.Proofs.FfiContract
import Verif.Proofs.FfiErrors
import Verif.Proofs.FfiHeader
import Verif.Proofs.FfiMessage
import Verif.Proofs.FfiPayload
import Verif.Proofs.FfiThreads
import Verif.Proofs.Gauss
import Verif.Proofs.GcmBlocks
import Verif.Proofs.GcmField
import Verif.Proofs.GcmForge
import Verif.Proofs.GcmHash
import Verif.Proofs.GcmSecrecy
import Verif.Proofs.Generic
import Verif.Proofs.History
import Verif.Proofs.Hybrid
import Verif.Proofs.Json
import Verif.Proofs.JsonPolicy
import Verif.Proofs.JsonPolicyText
import Verif.Proofs.JsonRead
import Verif.Proofs.JsonText
import Verif.Proofs.Msp
import Verif.Proofs.Parse
import Verif.Proofs.PointOrder
import Verif.Proofs.Points
import Verif.Proofs.Policy
import Verif.Proofs.PolicyDecide
import Verif.Proofs.PolicyWf
import Verif.Proofs.Py
import Verif.Proofs.RandomScalar
import Verif.Proofs.Reorder
import Verif.Proofs.ScalarField
import Verif.Proofs.Scheme
import Verif.Proofs.Shake
import Verif.Proofs.Solver
import Verif.Proofs.Span
import Verif.Proofs.TwistOrder
import Verif.Proofs.Wasm
import Verif.Props.Access
import Verif.Props.AdaptiveGame
import Verif.Props.AesGcm
import Verif.Props.Algebra
import Verif.Props.Alloc
import Verif.Props.Attack
import Verif.Props.Builds
import Verif.Props.Chosen
import Verif.Props.CipherGame
import Verif.Props.Codec
import Verif.Props.Crafted
import Verif.Props.Delegation
import Verif.Props.DelegationGame
import Verif.Props.Demo
import Verif.Props.DemoBytes
import Verif.Props.DemoFfi
import Verif.Props.DemoHybrid
import Verif.Props.DemoLib
import Verif.Props.Distribution
import Verif.Props.Draws
import Verif.Props.Endian
import Verif.Props.Ffi
import Verif.Props.FfiContract
import Verif.Props.FfiErrors
import Verif.Props.FfiFlow
import Verif.Props.FfiMessage
import Verif.Props.FfiThreads
import Verif.Props.Finder
import Verif.Props.Fixtures
import Verif.Props.GcmGame
import Verif.Props.Generic
import Verif.Props.History
import Verif.Props.Hybrid
import Verif.Props.HybridGame
import Verif.Props.HybridHistory
import Verif.Props.Integrity
import Verif.Props.Interop
import Verif.Props.InteropLife
import Verif.Props.Json
import Verif.Props.JsonRepo
import Verif.Props.LifeGame
import Verif.Props.ManyGame
import Verif.Props.Messages
import Verif.Props.Mixed
import Verif.Props.Msp
import Verif.Props.Parse
import Verif.Props.ParseStack
import Verif.Props.PointGroups
import Verif.Props.Points
import Verif.Props.Py
import Verif.Props.RandomScalar
import Verif.Props.Readme
import Verif.Props.Reduction
import Verif.Props.Reorder
import Verif.Props.Repeat
import Verif.Props.RepoBench
import Verif.Props.RepoBytesTests
import Verif.Props.RepoFfiTests
import Verif.Props.RepoFileTests
import Verif.Props.RepoJsTests
import Verif.Props.RepoPolicyTests
import Verif.Props.RepoPyDemo
import Verif.Props.RepoPyNotebook
import Verif.Props.RepoTests
import Verif.Props.Reveal
import Verif.Props.Scheme
import Verif.Props.Shake
import Verif.Props.Show
import Verif.Props.Silent
import Verif.Props.Size
import Verif.Props.SystemGame
import Verif.Props.SystemIntegrity
import Verif.Props.Text
import Verif.Props.Trace
import Verif.Props.Tracing
import Verif.Props.Wasm
import Verif.Props.White
import Verif.Spec.AdaptiveGame
import Verif.Spec.AesGcm
import Verif.Spec.Attack
import Verif.Spec.Chosen
import Verif.Spec.CipherGame
import Verif.Spec.Codec
import Verif.Spec.Crafted
import Verif.Spec.DelegationGame
import Verif.Spec.Draws
import Verif.Spec.Ffi
import Verif.Spec.FfiContract
import Verif.Spec.Finder
import Verif.Spec.Formula
import Verif.Spec.Game
import Verif.Spec.GcmField
import Verif.Spec.GcmGame
import Verif.Spec.Generic
import Verif.Spec.History
import Verif.Spec.Hybrid
import Verif.Spec.HybridGame
import Verif.Spec.Integrity
import Verif.Spec.Interop
import Verif.Spec.InteropLife
import Verif.Spec.Json
import Verif.Spec.Keys
import Verif.Spec.LifeGame
import Verif.Spec.ManyGame
import Verif.Spec.Matrix
import Verif.Spec.Messages
import Verif.Spec.Mixed
import Verif.Spec.Nonces
import Verif.Spec.Parse
import Verif.Spec.Points
import Verif.Spec.Policy
import Verif.Spec.Py
import Verif.Spec.RandomScalar
import Verif.Spec.Readme
import Verif.Spec.Repeat
import Verif.Spec.Reveal
import Verif.Spec.Shake
import Verif.Spec.Show
import Verif.Spec.Silent
import Verif.Spec.Size
import Verif.Spec.SystemGame
import Verif.Spec.SystemIntegrity
import Verif.Spec.Trace
import Verif.Spec.Wasm
import Verif.Spec.White
