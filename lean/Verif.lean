import Verif.Lemmas.Fs
import Verif.Lemmas.Fuzz
import Verif.Lemmas.FuzzOutput
import Verif.Lemmas.Lines
import Verif.Lemmas.Lossy
import Verif.Lemmas.Run
import Verif.Lemmas.RunPlain
import Verif.Lemmas.Storage
import Verif.Lemmas.Str
import Verif.Lemmas.Strip
import Verif.Lemmas.Utf8
import Verif.Model.Args
import Verif.Model.AttrOptions
import Verif.Model.Auto
import Verif.Model.Bincode
import Verif.Model.BincodeArgs
import Verif.Model.Bounds
import Verif.Model.Build
import Verif.Model.Cli
import Verif.Model.Combinators
import Verif.Model.Command
import Verif.Model.ConcRecord
import Verif.Model.ConcRuns
import Verif.Model.ConcWrite
import Verif.Model.Convert
import Verif.Model.DebugText
import Verif.Model.Dirs
import Verif.Model.Expand
import Verif.Model.Floats
import Verif.Model.Format
import Verif.Model.Fuzz
import Verif.Model.FuzzIO
import Verif.Model.Generics
import Verif.Model.Instrument
import Verif.Model.ListText
import Verif.Model.Log
import Verif.Model.Names
import Verif.Model.Opts
import Verif.Model.Postcard
import Verif.Model.PostcardArgs
import Verif.Model.Report
import Verif.Model.Retry
import Verif.Model.Run
import Verif.Model.Runtime
import Verif.Model.Semver
import Verif.Model.SerdeAttrs
import Verif.Model.SerdeOmit
import Verif.Model.Sha1
import Verif.Model.Storage
import Verif.Model.Syntax
import Verif.Model.Targets
import Verif.Model.Traits
import Verif.Model.TryDebug
import Verif.Model.TypeUtils
import Verif.Model.Ui
import Verif.Model.Utils
import Verif.Model.Versions
import Verif.Model.Warnings
import Verif.Props.Args
import Verif.Props.ArgsList
import Verif.Props.AttrOptions
import Verif.Props.Auto
import Verif.Props.AutoRun
import Verif.Props.Bincode
import Verif.Props.BincodeArgs
import Verif.Props.Borrows
import Verif.Props.Bounds
import Verif.Props.BoundsAssoc
import Verif.Props.Build
import Verif.Props.Cfg
import Verif.Props.CfgParams
import Verif.Props.Changes
import Verif.Props.Cli
import Verif.Props.Combinators
import Verif.Props.Combine
import Verif.Props.Command
import Verif.Props.CommandEnv
import Verif.Props.ConcRecord
import Verif.Props.ConcRuns
import Verif.Props.ConcSeq
import Verif.Props.ConcWrite
import Verif.Props.Convert
import Verif.Props.Corpora
import Verif.Props.DebugText
import Verif.Props.Details
import Verif.Props.Displayed
import Verif.Props.EndToEnd
import Verif.Props.Exact
import Verif.Props.Expand
import Verif.Props.ExpandPanics
import Verif.Props.ExpandSelf
import Verif.Props.Fairness
import Verif.Props.Floats
import Verif.Props.Fuzz
import Verif.Props.FuzzCases
import Verif.Props.FuzzEnd
import Verif.Props.FuzzExit
import Verif.Props.FuzzIO
import Verif.Props.FuzzOutput
import Verif.Props.FuzzSched
import Verif.Props.FuzzUi
import Verif.Props.GenericParams
import Verif.Props.Generics
import Verif.Props.Harness
import Verif.Props.History
import Verif.Props.InputsReach
import Verif.Props.Instances
import Verif.Props.Instrument
import Verif.Props.Layout
import Verif.Props.Lifetimes
import Verif.Props.ListText
import Verif.Props.ListVersions
import Verif.Props.Log
import Verif.Props.LogNames
import Verif.Props.Misc
import Verif.Props.Modes
import Verif.Props.Module
import Verif.Props.Names
import Verif.Props.Naming
import Verif.Props.Panics
import Verif.Props.Persistent
import Verif.Props.Postcard
import Verif.Props.PostcardArgs
import Verif.Props.PostcardWire
import Verif.Props.Quals
import Verif.Props.RecordFail
import Verif.Props.Recording
import Verif.Props.Replay
import Verif.Props.Report
import Verif.Props.Reproduce
import Verif.Props.Rerun
import Verif.Props.RoundTrip
import Verif.Props.Run
import Verif.Props.RunCases
import Verif.Props.RunListed
import Verif.Props.Screen
import Verif.Props.Selection
import Verif.Props.Semver
import Verif.Props.SemverRun
import Verif.Props.SemverText
import Verif.Props.SerdeAttrs
import Verif.Props.SerdeOmit
import Verif.Props.Sha1
import Verif.Props.Storage
import Verif.Props.Strip
import Verif.Props.Succeeds
import Verif.Props.Success
import Verif.Props.SuccessLoop
import Verif.Props.Traits
import Verif.Props.Tree
import Verif.Props.Truncated
import Verif.Props.Turbofish
import Verif.Props.TyText
import Verif.Props.TyTextArgs
import Verif.Props.Ui
import Verif.Props.Utils
import Verif.Props.Warnings
import Verif.Rust.Basic
import Verif.Rust.Env
import Verif.Rust.Fs
import Verif.Rust.Lossy
import Verif.Rust.Str
import Verif.Rust.Strip
import Verif.Rust.Utf8
import Verif.Spec.Args
import Verif.Spec.AttrOptions
import Verif.Spec.Bincode
import Verif.Spec.Bounds
import Verif.Spec.Cli
import Verif.Spec.Combine
import Verif.Spec.Command
import Verif.Spec.ConcRecord
import Verif.Spec.ConcRuns
import Verif.Spec.Corpora
import Verif.Spec.DebugText
import Verif.Spec.EndToEnd
import Verif.Spec.Fairness
import Verif.Spec.Floats
import Verif.Spec.Fuzz
import Verif.Spec.FuzzIO
import Verif.Spec.FuzzUi
import Verif.Spec.Generics
import Verif.Spec.Instrument
import Verif.Spec.ListText
import Verif.Spec.Lossy
import Verif.Spec.Modes
import Verif.Spec.Names
import Verif.Spec.Naming
import Verif.Spec.Panics
import Verif.Spec.Postcard
import Verif.Spec.PostcardWire
import Verif.Spec.RecordFail
import Verif.Spec.Recording
import Verif.Spec.Replay
import Verif.Spec.Report
import Verif.Spec.Reproduce
import Verif.Spec.Run
import Verif.Spec.Screen
import Verif.Spec.Selection
import Verif.Spec.Semver
import Verif.Spec.Sha1
import Verif.Spec.Storage
import Verif.Spec.Strip
import Verif.Spec.Succeeds
import Verif.Spec.Traits
import Verif.Spec.TyText
import Verif.Spec.Types
import Verif.Spec.Ui
import Verif.Spec.Warnings
