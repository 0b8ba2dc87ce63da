import Verif.Raw
import Verif.RawLemmas
import Verif.ListLemmas
import Verif.Optionals
import Verif.CycleMap.Model
import Verif.CycleMap.Spec
import Verif.CycleMap.Rep
import Verif.CycleMap.Refine
import Verif.CycleMap.Iterate
import Verif.CycleMap.Machine
import Verif.CycleMap.Simulation
import Verif.CycleMap.Serde
import Verif.CycleMap.SpecLemmas
import Verif.CycleMap.Counter
import Verif.CycleMap.Panics
import Verif.Instances
import Verif.Props.Optionals
import Verif.Props.CycleDemo
import Verif.Props.CycleBasic
import Verif.Props.CycleIter
import Verif.Props.CycleTraits
import Verif.Props.CyclePanic
import Verif.Panics
import Verif.PartialMap.Simulation
import Verif.Props.PartialDemo
import Verif.Props.PartialBasic
import Verif.Props.PartialSwap
import Verif.Props.PartialIter
import Verif.PartialMap.Counter
import Verif.PartialMap.SpecLemmas
import Verif.Props.PartialTraits
import Verif.PartialMap.Panics
import Verif.Props.PartialPanic
import Verif.GroupMap.Torn
import Verif.GroupMap.Mend
import Verif.Props.GroupDemo
import Verif.Props.GroupBasic
import Verif.Props.GroupSwap
import Verif.Props.GroupIter
import Verif.Props.GroupTraits
import Verif.GroupMap.Panics
import Verif.Props.GroupPanic
import Verif.Props.Storage
import Verif.Props.Capacity
import Verif.Closed
import Verif.Swiss.Triangle
import Verif.Swiss.Table
import Verif.Swiss.Lemmas
import Verif.Swiss.Lawful
import Verif.Swiss.Good
import Verif.Props.Swiss
import Verif.CycleMap.Always
import Verif.PartialMap.Always
import Verif.Props.Always
import Verif.Debug
import Verif.Props.Debug
import Verif.Props.SizeHint
import Verif.Unwind
import Verif.CycleMap.Unwind
import Verif.CycleMap.UnwindFollows
import Verif.CycleMap.UnwindClosures
import Verif.CycleMap.UnwindAlways
import Verif.CycleMap.UnwindValid
import Verif.Props.Unwind
import Verif.GroupMap.Unwind
import Verif.GroupMap.UnwindFollows
import Verif.GroupMap.UnwindClosures
import Verif.GroupMap.UnwindAlways
import Verif.GroupMap.UnwindValid
import Verif.Props.UnwindGroup
import Verif.PartialMap.Unwind
import Verif.PartialMap.UnwindFollows
import Verif.PartialMap.UnwindClosures
import Verif.PartialMap.UnwindAlways
import Verif.PartialMap.UnwindValid
import Verif.Props.UnwindPartial
import Verif.CycleMap.Forget
import Verif.PartialMap.Forget
import Verif.Props.Forget
import Verif.Drops
import Verif.CycleMap.Drops
import Verif.PartialMap.Drops
import Verif.GroupMap.Drops
import Verif.Props.Drops
import Verif.Buckets
import Verif.CycleMap.Buckets
import Verif.PartialMap.Buckets
import Verif.Ledger
import Verif.CycleMap.Ledger
import Verif.PartialMap.Ledger
import Verif.GroupMap.Ledger
import Verif.Props.Ledger
import Verif.Props.Buckets
import Verif.Pretty
import Verif.Props.Pretty
import Verif.Props.NoPanic
import Verif.Fused
import Verif.Props.Fused
import Verif.Props.Twin
import Verif.Props.Undo
import Verif.Props.DropEnd
import Verif.Props.Entries
import Verif.Memory
import Verif.Swiss.Memory
import Verif.Props.Memory
import Verif.Props.Serde
import Verif.CycleMap.Repair
import Verif.PartialMap.Repair
import Verif.GroupMap.Repair
import Verif.Props.Repair
import Verif.Props.RepairPartial
import Verif.Props.RepairGroup
import Verif.CycleMap.RepairMachine
import Verif.PartialMap.RepairMachine
import Verif.GroupMap.RepairMachine
import Verif.Props.RepairMachine
import Verif.Props.RepairMachinePartial
import Verif.Props.RepairMachineGroup
import Verif.Cost
import Verif.CycleMap.Cost
import Verif.PartialMap.Cost
import Verif.GroupMap.Cost
import Verif.Swiss.Amort
import Verif.Props.Cost
import Verif.CycleMap.WeakSpec
import Verif.CycleMap.Weak
import Verif.Props.Weak
import Verif.PartialMap.WeakSpec
import Verif.PartialMap.Weak
import Verif.PartialMap.WeakIter
import Verif.PartialMap.WeakBulk
import Verif.PartialMap.WeakExec
import Verif.Props.WeakPartial
import Verif.GroupMap.WeakSpec
import Verif.GroupMap.Weak
import Verif.GroupMap.WeakIter
import Verif.GroupMap.WeakExec
import Verif.GroupMap.WeakLawful
import Verif.Props.WeakGroup
import Verif.Props.Sharp
import Verif.Props.Frame
import Verif.Props.FramePartial
import Verif.Props.FrameGroup
import Verif.Props.Variants
import Verif.Props.Rebuild
import Verif.Tests.Basic
import Verif.Tests.CycleMap
import Verif.Tests.PartialMap
import Verif.Tests.GroupMap
import Verif.Tests.Optionals
import Verif.Tests.Docs
import Verif.Tests.Swiss
import Verif.Props.SwissBuckets
import Verif.Props.ParametricCycle
import Verif.Props.ParametricPartial
import Verif.Props.ParametricGroup
import Verif.Props.Mirror
import Verif.Props.MirrorPartial
import Verif.Props.Compound
import Verif.Props.RightCycle
import Verif.Props.RightPartial
import Verif.Props.RightGroup
import Verif.Props.OrderCycle
import Verif.Props.OrderPartial
import Verif.Props.OrderGroup
import Verif.CycleMap.Sturdy
import Verif.Props.Sturdy
import Verif.GroupMap.Sturdy
import Verif.GroupMap.SturdyValid
import Verif.Props.SturdyGroup
import Verif.PartialMap.Sturdy
import Verif.PartialMap.SturdyValid
import Verif.Props.SturdyPartial
import Verif.PartialMap.RepairPanics
import Verif.Props.RepairPanicPartial
