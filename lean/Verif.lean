import Verif.Base.BMap
import Verif.Base.BSet
import Verif.Base.Order
import Verif.Base.Res
import Verif.Conformance.RepoTests
import Verif.Model.Debug
import Verif.Model.Display
import Verif.Model.DuckSql
import Verif.Model.Eval
import Verif.Model.EvalHost
import Verif.Model.EvalRec
import Verif.Model.EvalSteps
import Verif.Model.Frontends
import Verif.Model.HeedShared
import Verif.Model.HeedSlots
import Verif.Model.JsValue
import Verif.Model.Lexer
import Verif.Model.LigLexer
import Verif.Model.Ligature
import Verif.Model.LigatureGraph
import Verif.Model.PackageMerge
import Verif.Model.Parser
import Verif.Model.Redb
import Verif.Model.RedbOpen
import Verif.Model.Regex
import Verif.Model.Serde
import Verif.Model.SuiteRun
import Verif.Model.Trips
import Verif.Model.TripsDuckDB
import Verif.Model.TripsHeed
import Verif.Model.TripsHeedFull
import Verif.Model.TripsMem
import Verif.Proofs.Again
import Verif.Proofs.Copy
import Verif.Proofs.DebugText
import Verif.Proofs.Duck
import Verif.Proofs.DuckSql
import Verif.Proofs.Effects
import Verif.Proofs.Eval
import Verif.Proofs.EvalLocal
import Verif.Proofs.EvalMore
import Verif.Proofs.EvalSim
import Verif.Proofs.Footprint
import Verif.Proofs.FootprintDuck
import Verif.Proofs.FootprintHist
import Verif.Proofs.Graph
import Verif.Proofs.Heed
import Verif.Proofs.HeedFull
import Verif.Proofs.HeedHist
import Verif.Proofs.HeedIds
import Verif.Proofs.HeedKeys
import Verif.Proofs.HeedMeter
import Verif.Proofs.HeedOut
import Verif.Proofs.HeedSlots
import Verif.Proofs.Host
import Verif.Proofs.HostFollow
import Verif.Proofs.JsonText
import Verif.Proofs.Lexer
import Verif.Proofs.LigLexer
import Verif.Proofs.Linear
import Verif.Proofs.Match
import Verif.Proofs.Mem
import Verif.Proofs.PackageMerge
import Verif.Proofs.Parser
import Verif.Proofs.ParserSim
import Verif.Proofs.Print
import Verif.Proofs.Provenance
import Verif.Proofs.Regex
import Verif.Proofs.Rename
import Verif.Proofs.Semantics
import Verif.Proofs.Serde
import Verif.Proofs.StaticCheck
import Verif.Proofs.Steps
import Verif.Proofs.Store
import Verif.Proofs.Template
import Verif.Proofs.Tokenize
import Verif.Props.Again
import Verif.Props.Apart
import Verif.Props.Apps
import Verif.Props.Assign
import Verif.Props.Backup
import Verif.Props.Commands
import Verif.Props.Concurrency
import Verif.Props.Copy
import Verif.Props.DuckSql
import Verif.Props.Effects
import Verif.Props.Evaluator
import Verif.Props.Everywhere
import Verif.Props.Footprint
import Verif.Props.GraphContract
import Verif.Props.GraphLayer
import Verif.Props.Growth
import Verif.Props.HeedCrash
import Verif.Props.HeedFull
import Verif.Props.HeedSlots
import Verif.Props.Hidden
import Verif.Props.HostCommands
import Verif.Props.Joining
import Verif.Props.JoiningMany
import Verif.Props.Lexing
import Verif.Props.LigLexing
import Verif.Props.LigWriting
import Verif.Props.Locality
import Verif.Props.LocalityMore
import Verif.Props.Messages
import Verif.Props.Monotone
import Verif.Props.OneSource
import Verif.Props.Ordering
import Verif.Props.PackageMerge
import Verif.Props.Parsing
import Verif.Props.Printing
import Verif.Props.Provenance
import Verif.Props.Reach
import Verif.Props.Rearrange
import Verif.Props.RedbOpen
import Verif.Props.Renaming
import Verif.Props.RenamingAll
import Verif.Props.Replace
import Verif.Props.Sayable
import Verif.Props.Screen
import Verif.Props.ScriptCrash
import Verif.Props.ScriptFaults
import Verif.Props.ScriptsCross
import Verif.Props.ScriptsShared
import Verif.Props.Semantics
import Verif.Props.Serde
import Verif.Props.Simplify
import Verif.Props.Snapshot
import Verif.Props.StaticCheck
import Verif.Props.StoreContract
import Verif.Props.StoreCross
import Verif.Props.StoreHeed
import Verif.Props.StoreLaws
import Verif.Props.StoreMem
import Verif.Props.Suite
import Verif.Props.Template
import Verif.Props.WebPage
import Verif.Spec.Again
import Verif.Spec.Apart
import Verif.Spec.Apps
import Verif.Spec.Assign
import Verif.Spec.Backup
import Verif.Spec.Copy
import Verif.Spec.Crash
import Verif.Spec.DebugText
import Verif.Spec.DuckSql
import Verif.Spec.Effects
import Verif.Spec.Eval
import Verif.Spec.Everywhere
import Verif.Spec.Faulty
import Verif.Spec.Footprint
import Verif.Spec.Graph
import Verif.Spec.GraphContract
import Verif.Spec.Growth
import Verif.Spec.Heed
import Verif.Spec.HeedFull
import Verif.Spec.Hidden
import Verif.Spec.Host
import Verif.Spec.InTurn
import Verif.Spec.Js
import Verif.Spec.JsonText
import Verif.Spec.JsonWritten
import Verif.Spec.Lexer
import Verif.Spec.LigLexer
import Verif.Spec.Linear
import Verif.Spec.Messages
import Verif.Spec.Monotone
import Verif.Spec.OneSource
import Verif.Spec.Order
import Verif.Spec.PackageMerge
import Verif.Spec.Parser
import Verif.Spec.Print
import Verif.Spec.Provenance
import Verif.Spec.Reach
import Verif.Spec.RedbOpen
import Verif.Spec.Rename
import Verif.Spec.Replace
import Verif.Spec.Sayable
import Verif.Spec.Screen
import Verif.Spec.Script
import Verif.Spec.Semantics
import Verif.Spec.Serde
import Verif.Spec.Slots
import Verif.Spec.Snapshot
import Verif.Spec.StaticCheck
import Verif.Spec.Steps
import Verif.Spec.Store
import Verif.Spec.Strict
import Verif.Spec.Suite
import Verif.Spec.Template
