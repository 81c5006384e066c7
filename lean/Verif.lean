import Verif.Model.Outcome
import Verif.Model.HandlePool
import Verif.Model.HandlePoolConc
import Verif.Spec.Handles
import Verif.Proofs.HandlePool
import Verif.Proofs.HandlePoolConc
import Verif.Props.Handles
import Verif.Model.SparseTable
import Verif.Spec.FinMap
import Verif.Proofs.SparseTable
import Verif.Props.SparseMap
import Verif.Model.Bitset
import Verif.Proofs.Bitset
import Verif.Props.Bitset
import Verif.Model.HashTable
import Verif.Spec.KeyMap
import Verif.Proofs.HashTable
import Verif.Proofs.HashTableErase
import Verif.Proofs.HashTableRefine
import Verif.Proofs.HashTableStuck
import Verif.Props.HashMap
import Verif.Model.Component
import Verif.Model.Layout
import Verif.Proofs.Layout
import Verif.Props.Layout
import Verif.Props.TypeIds
import Verif.Proofs.Component
import Verif.Props.ComponentSet
import Verif.Model.Alloc
import Verif.Proofs.Alloc
import Verif.Props.Alloc
import Verif.Model.Access
import Verif.Spec.Conflict
import Verif.Proofs.Access
import Verif.Model.Schedule
import Verif.Proofs.Schedule
import Verif.Props.Access
import Verif.Props.Schedule
import Verif.Proofs.ParallelExec
import Verif.Props.Determinism
import Verif.Proofs.WsQueue
import Verif.Props.WsQueue
import Verif.Proofs.Task
import Verif.Props.Task
import Verif.Model.TypeName
import Verif.Props.TypeName
import Verif.Props.ParallelFor
import Verif.Model.Chunk
import Verif.Model.Archetype
import Verif.Model.Registry
import Verif.Proofs.HashFuel
import Verif.Proofs.Chunk
import Verif.Proofs.Archetype
import Verif.Proofs.ArchetypeOps
import Verif.Proofs.Archs
import Verif.Proofs.Link
import Verif.Proofs.Rep
import Verif.Proofs.RepOps
import Verif.Proofs.RepCopy
import Verif.Spec.Registry
import Verif.Proofs.History
import Verif.Proofs.Exec
import Verif.Proofs.Observe
import Verif.Proofs.RepEnd
import Verif.Props.Registry
import Verif.Props.RegistryStorage
import Verif.Props.RegistryObservers
import Verif.Model.View
import Verif.Spec.View
import Verif.Proofs.View
import Verif.Proofs.ViewSpec
import Verif.Props.View
import Verif.Model.Command
import Verif.Spec.Command
import Verif.Proofs.Command
import Verif.Proofs.CommandMore
import Verif.Props.Command
import Verif.Proofs.Capacity
import Verif.Props.Capacity
import Verif.Model.ThreadPool
import Verif.Spec.ThreadPool
import Verif.Proofs.ThreadPool
import Verif.Proofs.ForkJoin
import Verif.Proofs.Termination
import Verif.Proofs.Joined
import Verif.Proofs.PoolSem
import Verif.Props.ThreadPool
import Verif.Model.PoolThreads
import Verif.Props.PoolThreads
import Verif.Model.Throwing
import Verif.Proofs.Throwing
import Verif.Props.Throwing
import Verif.Model.HashLife
import Verif.Proofs.HashLife
import Verif.Props.HashLife
import Verif.Spec.Growth
import Verif.Proofs.Growth
import Verif.Props.StorageGrowth
import Verif.Model.ViewChange
import Verif.Proofs.ViewChange
import Verif.Props.ViewChange
import Verif.Spec.Deferred
import Verif.Proofs.Deferred
import Verif.Props.Deferred
import Verif.Spec.ViewOthers
import Verif.Proofs.ViewOthers
import Verif.Props.ViewOthers
import Verif.Model.Weak
import Verif.Model.WeakPool
import Verif.Props.WeakPool
import Verif.Spec.WeakQueue
import Verif.Proofs.Weak
import Verif.Proofs.WeakQueueCode
import Verif.Proofs.WeakQueue
import Verif.Proofs.WeakQueueSteps
import Verif.Proofs.WeakQueueInv
import Verif.Props.WeakQueue
import Verif.Model.WeakHandles
import Verif.Spec.WeakHandles
import Verif.Proofs.WeakHandlesCode
import Verif.Proofs.WeakHandles
import Verif.Props.WeakHandles
import Verif.Model.HashCopy
import Verif.Spec.HashCopy
import Verif.Proofs.HashCopy
import Verif.Props.HashCopy
import Verif.Model.Builder
import Verif.Spec.Builder
import Verif.Proofs.Builder
import Verif.Props.Builder
import Verif.Spec.WeakTurns
import Verif.Spec.WeakUse
import Verif.Proofs.WeakTurns
import Verif.Proofs.WeakUse
import Verif.Props.WeakUse
import Verif.Spec.WeakRounds
import Verif.Spec.WeakSchedule
import Verif.Proofs.WeakRounds
import Verif.Proofs.WeakRoundsInv
import Verif.Proofs.WeakSchedule
import Verif.Props.WeakRounds
import Verif.Model.TempAlloc
import Verif.Spec.TempAlloc
import Verif.Proofs.TempAlloc
import Verif.Props.TempAlloc
import Verif.Spec.WeakEach
import Verif.Proofs.WeakEach
import Verif.Props.WeakEach
import Verif.Props.WeakLitmus
import Verif.Spec.WeakDeque
import Verif.Proofs.WeakDeque
import Verif.Props.WeakDeque
import Verif.Spec.WeakTasks
import Verif.Proofs.WeakTasks
import Verif.Props.WeakTasks
import Verif.Model.MoveWithin
import Verif.Proofs.MoveWithin
import Verif.Props.MoveWithin
import Verif.Proofs.Placeholder
import Verif.Props.Placeholder
import Verif.Spec.ParallelRecord
import Verif.Proofs.ParallelRecord
import Verif.Proofs.BatchRun
import Verif.Props.ParallelRecord
import Verif.Model.Reentrant
import Verif.Spec.Reentrant
import Verif.Proofs.Reentrant
import Verif.Proofs.ReentrantEnds
import Verif.Props.Reentrant
import Verif.Spec.WeakShared
import Verif.Proofs.WeakShared
import Verif.Model.WeakCommand
import Verif.Spec.WeakCommand
import Verif.Proofs.WeakCommand
import Verif.Props.WeakCommand
import Verif.Model.Buffers
import Verif.Proofs.Buffers
import Verif.Proofs.BuffersInv
import Verif.Proofs.BuffersLoc
import Verif.Spec.Buffers
import Verif.Proofs.BuffersStep
import Verif.Proofs.BuffersAddr
import Verif.Props.Buffers
import Verif.Model.Unwind
import Verif.Proofs.Unwind
import Verif.Proofs.UnwindInv
import Verif.Proofs.UnwindCalls
import Verif.Proofs.UnwindAlone
import Verif.Proofs.UnwindUb
import Verif.Props.Unwind
import Verif.Proofs.UnwindSolo
import Verif.Props.UnwindExact
import Verif.Model.Destructors
import Verif.Spec.Destructors
import Verif.Proofs.DestructorsFrame
import Verif.Proofs.DestructorsApart
import Verif.Proofs.DestructorsCells
import Verif.Proofs.DestructorsRemove
import Verif.Proofs.DestructorsNest
import Verif.Props.Destructors
import Verif.Model.StartUp
import Verif.Proofs.StartUp
import Verif.Props.StartUp
import Verif.Model.SetArgs
import Verif.Props.SetArgs
import Verif.Model.Callback
import Verif.Proofs.Callback
import Verif.Props.Callback
import Verif.Model.TaskReuse
import Verif.Proofs.TaskReuse
import Verif.Props.TaskReuse
import Verif.Model.HashThrow
import Verif.Proofs.HashThrow
import Verif.Props.HashThrow
import Verif.Model.OutOfMemory
import Verif.Spec.OutOfMemory
import Verif.Proofs.OutOfMemory
import Verif.Props.OutOfMemory
import Verif.Model.AllocMove
import Verif.Proofs.AllocMove
import Verif.Props.AllocMove
import Verif.Spec.FirstFit
import Verif.Proofs.FirstFit
import Verif.Props.FirstFit
import Verif.Proofs.Noncommuting
import Verif.Props.Noncommuting
import Verif.Proofs.HandlePoolMix
import Verif.Props.HandlesMix
import Verif.Props.CommandMix
import Verif.Proofs.Readers
import Verif.Props.Readers
import Verif.Props.TaskThrow
import Verif.Props.CommandOrder
import Verif.Model.ParThrow
import Verif.Proofs.ParThrow
import Verif.Props.ParThrow
import Verif.Proofs.SetFrom
import Verif.Props.SetFromExact
import Verif.Props.SemaphoreWait
import Verif.Props.WaitForever
import Verif.Proofs.Nested
import Verif.Props.Nested
import Verif.Proofs.Leapfrog
import Verif.Props.TwoWorkers
import Verif.Props.EveryPool
import Verif.Proofs.Depth
import Verif.Props.StackDepth
import Verif.Props.Revival
import Verif.Props.FailedClone
import Verif.Spec.TaskTree
import Verif.Proofs.TaskCalm
import Verif.Props.TaskTree
import Verif.Props.FailedPool
import Verif.Proofs.CapacityExact
import Verif.Props.CapacityExact
import Verif.Model.EntityRef
import Verif.Props.EntityRef
import Verif.Model.TaskLife
import Verif.Props.TaskLife
import Verif.Model.EntityComponent
import Verif.Props.EntityComponent
import Verif.Props.ReadOnly
import Verif.Model.ViewRange
import Verif.Spec.ViewRange
import Verif.Proofs.ViewRange
import Verif.Props.ViewRange
import Verif.Props.ViewRangeExact
import Verif.Model.UniqueTypes
import Verif.Props.UniqueTypes
import Verif.Model.Messages
import Verif.Props.Messages
import Verif.Model.ConstAccess
import Verif.Props.ConstAccess
import Verif.Spec.Commute
import Verif.Props.Commute
import Verif.Model.HashIter
import Verif.Props.HashIter
import Verif.Model.SparseIter
import Verif.Props.SparseIter
import Verif.Spec.ViewOrder
import Verif.Props.ViewOrder
import Verif.Props.OrderKept
import Verif.Props.OrderViews
