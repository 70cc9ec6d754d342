import Verif.Model.Clone
import Verif.Model.Conc
import Verif.Model.ConcUnwind
import Verif.Model.Default
import Verif.Model.Fetch
import Verif.Model.Fine
import Verif.Model.FuzzSlab
import Verif.Model.FuzzSync
import Verif.Model.FuzzUnsync
import Verif.Model.Herd
import Verif.Model.Listener
import Verif.Model.Locks
import Verif.Model.Nest
import Verif.Model.Options
import Verif.Model.Pairs
import Verif.Model.Park
import Verif.Model.Poison
import Verif.Model.Release
import Verif.Model.Request
import Verif.Model.Res
import Verif.Model.Rogue
import Verif.Model.Shard
import Verif.Model.Sharded
import Verif.Model.Slab
import Verif.Model.Solo
import Verif.Model.SoloSharded
import Verif.Model.Sweep
import Verif.Model.Sync
import Verif.Model.SyncTests
import Verif.Model.UnitTests
import Verif.Model.Unsync
import Verif.Model.Unwind
import Verif.Model.Validate
import Verif.Proofs.Abs
import Verif.Proofs.Balance
import Verif.Proofs.Calls
import Verif.Proofs.Cleared
import Verif.Proofs.ClockAbs
import Verif.Proofs.ClockBlind
import Verif.Proofs.ClockConc
import Verif.Proofs.ClockEvict
import Verif.Proofs.ClockFit
import Verif.Proofs.ClockFlood
import Verif.Proofs.ClockOrder
import Verif.Proofs.ClockPtr
import Verif.Proofs.ClockRun
import Verif.Proofs.ClockScan
import Verif.Proofs.ClockStep
import Verif.Proofs.ClockStore
import Verif.Proofs.ClockTwin
import Verif.Proofs.ClockWrite
import Verif.Proofs.Clone
import Verif.Proofs.ConcEff
import Verif.Proofs.ConcFacts
import Verif.Proofs.ConcHistory
import Verif.Proofs.ConcInv
import Verif.Proofs.ConcKeep
import Verif.Proofs.ConcProgress
import Verif.Proofs.ConcRun
import Verif.Proofs.ConcTrace
import Verif.Proofs.ConcUnwind
import Verif.Proofs.Counters
import Verif.Proofs.Crowd
import Verif.Proofs.Default
import Verif.Proofs.Dict
import Verif.Proofs.DictConc
import Verif.Proofs.EvSteps
import Verif.Proofs.Evict
import Verif.Proofs.Fetch
import Verif.Proofs.FetchFacts
import Verif.Proofs.Fields
import Verif.Proofs.Fine
import Verif.Proofs.FineFacts
import Verif.Proofs.FineWork
import Verif.Proofs.Fuel
import Verif.Proofs.FuzzSlab
import Verif.Proofs.FuzzSync
import Verif.Proofs.FuzzUnsync
import Verif.Proofs.Herd
import Verif.Proofs.HerdEnd
import Verif.Proofs.History
import Verif.Proofs.Insert
import Verif.Proofs.Inv
import Verif.Proofs.Leak
import Verif.Proofs.Listener
import Verif.Proofs.Locks
import Verif.Proofs.Longevity
import Verif.Proofs.Memory
import Verif.Proofs.Nest
import Verif.Proofs.NoUB
import Verif.Proofs.OpSpec
import Verif.Proofs.Ops
import Verif.Proofs.Options
import Verif.Proofs.Overflow
import Verif.Proofs.Overwrite
import Verif.Proofs.Pairs
import Verif.Proofs.Panics
import Verif.Proofs.Placeholder
import Verif.Proofs.Poison
import Verif.Proofs.PoisonRun
import Verif.Proofs.Protocol
import Verif.Proofs.Provenance
import Verif.Proofs.Release
import Verif.Proofs.Remove
import Verif.Proofs.Request
import Verif.Proofs.Rogue
import Verif.Proofs.RogueAgree
import Verif.Proofs.Run
import Verif.Proofs.Scan
import Verif.Proofs.SecKeep
import Verif.Proofs.Sections
import Verif.Proofs.Sharded
import Verif.Proofs.SharedMemory
import Verif.Proofs.Slab
import Verif.Proofs.SlabSim
import Verif.Proofs.Slots
import Verif.Proofs.Solo
import Verif.Proofs.SoloSharded
import Verif.Proofs.Step
import Verif.Proofs.Store
import Verif.Proofs.Struct
import Verif.Proofs.Sweep
import Verif.Proofs.SyncTests
import Verif.Proofs.UnitTests
import Verif.Proofs.UnwindAgree
import Verif.Proofs.UnwindPts
import Verif.Proofs.UnwindStep
import Verif.Proofs.Validate
import Verif.Proofs.Vary
import Verif.Proofs.Weight
import Verif.Proofs.Work
import Verif.Props.Admission
import Verif.Props.Balance
import Verif.Props.Calls
import Verif.Props.Cleared
import Verif.Props.Clock
import Verif.Props.ClockConc
import Verif.Props.Clone
import Verif.Props.Conc
import Verif.Props.ConcExample
import Verif.Props.ConcUnwind
import Verif.Props.Contents
import Verif.Props.Crowd
import Verif.Props.Default
import Verif.Props.Dict
import Verif.Props.DictConc
import Verif.Props.Eviction
import Verif.Props.Example
import Verif.Props.Fetch
import Verif.Props.Fine
import Verif.Props.Flood
import Verif.Props.Fuzz
import Verif.Props.Herd
import Verif.Props.Leak
import Verif.Props.Listener
import Verif.Props.Locks
import Verif.Props.Longevity
import Verif.Props.Memory
import Verif.Props.Nest
import Verif.Props.Options
import Verif.Props.Order
import Verif.Props.Overflow
import Verif.Props.Pairs
import Verif.Props.Panics
import Verif.Props.Park
import Verif.Props.Poison
import Verif.Props.Provenance
import Verif.Props.Release
import Verif.Props.Request
import Verif.Props.Rogue
import Verif.Props.RogueExample
import Verif.Props.Safety
import Verif.Props.Sharded
import Verif.Props.SharedMemory
import Verif.Props.Slab
import Verif.Props.Solo
import Verif.Props.SoloSharded
import Verif.Props.Sweep
import Verif.Props.Thin
import Verif.Props.Unwind
import Verif.Props.Validate
import Verif.Props.Vary
import Verif.Props.Weak
import Verif.Props.Weight
import Verif.Props.Work
import Verif.Spec.Balance
import Verif.Spec.Cache
import Verif.Spec.Cleared
import Verif.Spec.Clock
import Verif.Spec.ClockConc
import Verif.Spec.Conc
import Verif.Spec.ConcUnwind
import Verif.Spec.Crowd
import Verif.Spec.Dict
import Verif.Spec.Fetch
import Verif.Spec.Fine
import Verif.Spec.Flood
import Verif.Spec.Herd
import Verif.Spec.History
import Verif.Spec.Listener
import Verif.Spec.Locks
import Verif.Spec.Longevity
import Verif.Spec.Nest
import Verif.Spec.Ops
import Verif.Spec.Order
import Verif.Spec.Panics
import Verif.Spec.Poison
import Verif.Spec.Provenance
import Verif.Spec.Release
import Verif.Spec.Request
import Verif.Spec.Rogue
import Verif.Spec.Sharded
import Verif.Spec.SharedMemory
import Verif.Spec.SlabLists
import Verif.Spec.Sweep
import Verif.Spec.Twin
import Verif.Spec.Unwind
import Verif.Spec.Vary
import Verif.Spec.Work
