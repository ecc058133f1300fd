import Verif.Model.Basic
import Verif.Model.Commands
import Verif.Model.Config
import Verif.Model.ConnV1
import Verif.Model.Debug
import Verif.Model.Event
import Verif.Model.F64
import Verif.Model.Gen
import Verif.Model.GenData
import Verif.Model.HashObj
import Verif.Model.ListObj
import Verif.Model.Main
import Verif.Model.Persistence
import Verif.Model.Protocol
import Verif.Model.Reader
import Verif.Model.Server
import Verif.Model.ServerV1
import Verif.Model.SetObj
import Verif.Model.ShardMap
import Verif.Model.SkipList
import Verif.Model.Stdout
import Verif.Model.Store
import Verif.Model.Strconv
import Verif.Model.Timed
import Verif.Spec.Account
import Verif.Spec.Board
import Verif.Spec.Causal
import Verif.Spec.Client
import Verif.Spec.Config
import Verif.Spec.Contents
import Verif.Spec.Coord
import Verif.Spec.Delays
import Verif.Spec.FlatMap
import Verif.Spec.Float
import Verif.Spec.Frame
import Verif.Spec.Gen
import Verif.Spec.Grammar
import Verif.Spec.Hashes
import Verif.Spec.Keys
import Verif.Spec.Kinds
import Verif.Spec.Labels
import Verif.Spec.Linear
import Verif.Spec.Lists
import Verif.Spec.Locks
import Verif.Spec.LogText
import Verif.Spec.Noise
import Verif.Spec.Readers
import Verif.Spec.Reference
import Verif.Spec.Rename
import Verif.Spec.Resp
import Verif.Spec.Rows
import Verif.Spec.Scores
import Verif.Spec.Sets
import Verif.Spec.Shared
import Verif.Spec.Snapshots
import Verif.Spec.Strings
import Verif.Spec.Surplus
import Verif.Spec.Texts
import Verif.Spec.Timed
import Verif.Spec.Together
import Verif.Spec.Totals
import Verif.Spec.Types
import Verif.Spec.Units
import Verif.Spec.V1
import Verif.Spec.Wire
import Verif.Spec.Wires
import Verif.Spec.ZSets
import Verif.Proofs.Again
import Verif.Proofs.Batch
import Verif.Proofs.Contents
import Verif.Proofs.Coord
import Verif.Proofs.Decode
import Verif.Proofs.Effects
import Verif.Proofs.Encode
import Verif.Proofs.Event
import Verif.Proofs.Event2
import Verif.Proofs.Event3
import Verif.Proofs.Event4
import Verif.Proofs.Float
import Verif.Proofs.Foreign
import Verif.Proofs.Gen
import Verif.Proofs.Gen2
import Verif.Proofs.Grammar
import Verif.Proofs.Grammar2
import Verif.Proofs.Grammar3
import Verif.Proofs.Hashes
import Verif.Proofs.Iso
import Verif.Proofs.Iso2
import Verif.Proofs.Iso3
import Verif.Proofs.Iso4
import Verif.Proofs.Iso5
import Verif.Proofs.Keys
import Verif.Proofs.ListObj
import Verif.Proofs.ListRem
import Verif.Proofs.Lists
import Verif.Proofs.Lists2
import Verif.Proofs.Lists3
import Verif.Proofs.Lists4
import Verif.Proofs.LogText
import Verif.Proofs.NoPanic
import Verif.Proofs.NoTrace
import Verif.Proofs.Order
import Verif.Proofs.Order2
import Verif.Proofs.Order3
import Verif.Proofs.Reach
import Verif.Proofs.Reader
import Verif.Proofs.Reader2
import Verif.Proofs.Reader3
import Verif.Proofs.Reference
import Verif.Proofs.Reference2
import Verif.Proofs.Reference3
import Verif.Proofs.Rename
import Verif.Proofs.Rename2
import Verif.Proofs.Replies
import Verif.Proofs.Rows
import Verif.Proofs.Rows2
import Verif.Proofs.Rows3
import Verif.Proofs.Same
import Verif.Proofs.Scores
import Verif.Proofs.Scores2
import Verif.Proofs.Scores3
import Verif.Proofs.SetObj
import Verif.Proofs.Sets
import Verif.Proofs.Sets2
import Verif.Proofs.Shape
import Verif.Proofs.Shape2
import Verif.Proofs.ShardMap
import Verif.Proofs.Share
import Verif.Proofs.Shared
import Verif.Proofs.Shared2
import Verif.Proofs.SkipDelete
import Verif.Proofs.SkipInsert
import Verif.Proofs.SkipOrder
import Verif.Proofs.SkipQuery
import Verif.Proofs.SkipRep
import Verif.Proofs.SkipWalk
import Verif.Proofs.Stdout
import Verif.Proofs.Strconv
import Verif.Proofs.Strings
import Verif.Proofs.Strings2
import Verif.Proofs.Texts
import Verif.Proofs.Texts2
import Verif.Proofs.Texts3
import Verif.Proofs.Types
import Verif.Proofs.V1
import Verif.Proofs.V12
import Verif.Proofs.V13
import Verif.Proofs.V14
import Verif.Proofs.V15
import Verif.Proofs.ZHeap
import Verif.Proofs.ZInterval
import Verif.Proofs.ZInterval2
import Verif.Proofs.ZObj
import Verif.Proofs.ZSets
import Verif.Proofs.ZSets2
import Verif.Proofs.ZSets3
import Verif.Proofs.ZSets4
import Verif.Proofs.ZSets5
import Verif.Proofs.ZSets6
import Verif.Proofs.ZSets7
import Verif.Props.Account
import Verif.Props.Again
import Verif.Props.Apart
import Verif.Props.Apart2
import Verif.Props.Batch
import Verif.Props.Board
import Verif.Props.Causal
import Verif.Props.Client
import Verif.Props.CloseV1
import Verif.Props.Concurrency
import Verif.Props.Config
import Verif.Props.ConnV1
import Verif.Props.Contents
import Verif.Props.Coord
import Verif.Props.Crash
import Verif.Props.Defs
import Verif.Props.Delays
import Verif.Props.Exceptions
import Verif.Props.Exclusive
import Verif.Props.Gen
import Verif.Props.Grammar
import Verif.Props.Hashes
import Verif.Props.Heights
import Verif.Props.Inverse
import Verif.Props.Keys
import Verif.Props.Kinds
import Verif.Props.LifeV1
import Verif.Props.Lists
import Verif.Props.Lists2
import Verif.Props.Locks
import Verif.Props.Log
import Verif.Props.NoTrace
import Verif.Props.Noise
import Verif.Props.Play
import Verif.Props.PopMax
import Verif.Props.Process
import Verif.Props.Protocol
import Verif.Props.Reader
import Verif.Props.Readers
import Verif.Props.Recovery
import Verif.Props.Reference
import Verif.Props.Register
import Verif.Props.Rename
import Verif.Props.Rows
import Verif.Props.Schedules
import Verif.Props.SchedulesV1
import Verif.Props.ScoreTable
import Verif.Props.Scores
import Verif.Props.ServerV1
import Verif.Props.SetDefs
import Verif.Props.Sets
import Verif.Props.Settle
import Verif.Props.ShardMap
import Verif.Props.Shared
import Verif.Props.Shutdown
import Verif.Props.Snapshots
import Verif.Props.Stdout
import Verif.Props.Strings
import Verif.Props.Surplus
import Verif.Props.Texts
import Verif.Props.Timed
import Verif.Props.Together
import Verif.Props.Totals
import Verif.Props.Types
import Verif.Props.V1Noise
import Verif.Props.Wires
import Verif.Props.ZDefs
import Verif.Props.ZExact
import Verif.Props.ZSets
import Verif.Props.ZSets2
