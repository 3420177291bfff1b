import Verif.Borrow.Cells
import Verif.Borrow.Iter
import Verif.Borrow.IterSlice
import Verif.Borrow.Law
import Verif.Borrow.Model
import Verif.Borrow.Others
import Verif.Borrow.OthersProofs
import Verif.Borrow.Proofs
import Verif.Borrow.Refine
import Verif.Borrow.Sizes
import Verif.Borrow.Steps
import Verif.Borrow.Tree
import Verif.Borrow.TreeOthers
import Verif.Compare.Model
import Verif.Debug.Model
import Verif.Debug.Options
import Verif.Debug.Pretty
import Verif.Debug.Printing
import Verif.Debug.Proofs
import Verif.Debug.StringPrinting
import Verif.Deque.Cost
import Verif.Deque.Foreign
import Verif.Deque.FrontCost
import Verif.Deque.Grants
import Verif.Deque.Inv
import Verif.Deque.Iter
import Verif.Deque.Limits
import Verif.Deque.LimitsProofs
import Verif.Deque.Model
import Verif.Deque.NoMemory
import Verif.Deque.NoMemoryProofs
import Verif.Deque.Ops
import Verif.Deque.Proofs
import Verif.Deque.RemoveCost
import Verif.Deque.Rep
import Verif.Deque.Stale
import Verif.Deque.Sweep
import Verif.FixedVector.Model
import Verif.FixedVector.Move
import Verif.FixedVector.Proofs
import Verif.FixedVector.Take
import Verif.Forward.Model
import Verif.Handed.Machine
import Verif.Handed.Model
import Verif.Handed.Proofs
import Verif.Hash.Lossy
import Verif.Hash.LossyProofs
import Verif.Hash.Model
import Verif.Hash.Proofs
import Verif.HashTable.Any
import Verif.HashTable.Cost
import Verif.HashTable.EntryCalls
import Verif.HashTable.Facts
import Verif.HashTable.Foreign
import Verif.HashTable.FreeDepth
import Verif.HashTable.Grants
import Verif.HashTable.Inv
import Verif.HashTable.Iter
import Verif.HashTable.Iterated
import Verif.HashTable.KeyCalls
import Verif.HashTable.Leaks
import Verif.HashTable.Model
import Verif.HashTable.NoArray
import Verif.HashTable.Ops
import Verif.HashTable.Oracle
import Verif.HashTable.OracleMove
import Verif.HashTable.OracleRun
import Verif.HashTable.OracleSteady
import Verif.HashTable.PartSweep
import Verif.HashTable.Policy
import Verif.HashTable.PolicyProofs
import Verif.HashTable.Primes
import Verif.HashTable.Rep
import Verif.HashTable.Sweep
import Verif.HashTable.Table
import Verif.HashTable.Two
import Verif.HashTable.WalkCost
import Verif.Layout.Fixed
import Verif.Layout.Init
import Verif.Layout.Lemmas
import Verif.Layout.Model
import Verif.Layout.Objects
import Verif.LinkedList.Counter
import Verif.LinkedList.CounterProofs
import Verif.LinkedList.Foreign
import Verif.LinkedList.Grants
import Verif.LinkedList.Inv
import Verif.LinkedList.Model
import Verif.LinkedList.Place
import Verif.LinkedList.Proofs
import Verif.LinkedList.Sweep
import Verif.Machine.Arith
import Verif.Machine.Collect
import Verif.Machine.CollectExact
import Verif.Machine.Construct
import Verif.Machine.FixedList
import Verif.Machine.FixedVector
import Verif.Machine.Hash
import Verif.Machine.HashCollect
import Verif.Machine.MapBulk
import Verif.Machine.MapExact
import Verif.Machine.Modest
import Verif.Machine.ModestMap
import Verif.Machine.ModestText
import Verif.Machine.Pool
import Verif.Machine.Text
import Verif.Machine.TextProofs
import Verif.Machine.Vector
import Verif.Machine.VectorMap
import Verif.Machine.VectorProofs
import Verif.Mem
import Verif.MemLemmas
import Verif.Nested.KeyModel
import Verif.Nested.KeyProofs
import Verif.Nested.Kinds
import Verif.Nested.MapModel
import Verif.Nested.Maps
import Verif.Nested.Model
import Verif.Nested.Outers
import Verif.Nested.Pile
import Verif.Nested.Proofs
import Verif.Nested.TextModel
import Verif.Nested.TextProofs
import Verif.Nested.TreeModel
import Verif.Nested.TreeProofs
import Verif.Node.Law
import Verif.Node.Mem
import Verif.Pool.Model
import Verif.Pool.Overflow
import Verif.Pool.Proofs
import Verif.Props.Aliasing
import Verif.Props.Borrow
import Verif.Props.CallCost
import Verif.Props.CollectMap
import Verif.Props.Compare
import Verif.Props.Cost
import Verif.Props.Debug
import Verif.Props.Deque
import Verif.Props.DequeCost
import Verif.Props.DequeLimits
import Verif.Props.DequeNoMemory
import Verif.Props.DequeRefusals
import Verif.Props.EntryCalls
import Verif.Props.FixedLayout
import Verif.Props.FixedMap
import Verif.Props.FixedNone
import Verif.Props.FixedSize
import Verif.Props.FixedTake
import Verif.Props.FixedVector
import Verif.Props.Float
import Verif.Props.Flooding
import Verif.Props.Foreign
import Verif.Props.ForeignSeq
import Verif.Props.FormatOptions
import Verif.Props.Forward
import Verif.Props.FreeDepth
import Verif.Props.Handed
import Verif.Props.Hash
import Verif.Props.HashFreeDepth
import Verif.Props.HashLeak
import Verif.Props.HashLimit
import Verif.Props.HashOracle
import Verif.Props.HashOrder
import Verif.Props.HashRefusals
import Verif.Props.HashTable
import Verif.Props.Init
import Verif.Props.IterSlice
import Verif.Props.KeyCalls
import Verif.Props.KeyPanics
import Verif.Props.Latin
import Verif.Props.Layout
import Verif.Props.LinkedList
import Verif.Props.ListCounter
import Verif.Props.ListPlace
import Verif.Props.ListRefusals
import Verif.Props.Lossy
import Verif.Props.Machine
import Verif.Props.MachineCollect
import Verif.Props.MachineCollectExact
import Verif.Props.MachineConstruct
import Verif.Props.MachineFixed
import Verif.Props.MachineFixedList
import Verif.Props.MachineHanded
import Verif.Props.MachineHandedMore
import Verif.Props.MachineHash
import Verif.Props.MachineHashCollect
import Verif.Props.MachineMap
import Verif.Props.MachineMapBulk
import Verif.Props.MachineMapExact
import Verif.Props.MachineModest
import Verif.Props.MachinePool
import Verif.Props.MachineSame
import Verif.Props.MachineText
import Verif.Props.MachineTextPushes
import Verif.Props.MapMoves
import Verif.Props.Nested
import Verif.Props.NestedMap
import Verif.Props.NestedText
import Verif.Props.NestedTree
import Verif.Props.Objects
import Verif.Props.Oracle
import Verif.Props.OutOfMemory
import Verif.Props.Pointers
import Verif.Props.Pool
import Verif.Props.Pretty
import Verif.Props.Printing
import Verif.Props.Refused
import Verif.Props.Sharing
import Verif.Props.Slices
import Verif.Props.StringKeys
import Verif.Props.StringPrinting
import Verif.Props.Sweep
import Verif.Props.Text
import Verif.Props.TextBytes
import Verif.Props.TextEdit
import Verif.Props.Threads
import Verif.Props.Tree
import Verif.Props.TreeBorrows
import Verif.Props.TreeBuild
import Verif.Props.TreeRemove
import Verif.Props.Unwind
import Verif.Props.UnwindMore
import Verif.Props.Vector
import Verif.Props.VectorMap
import Verif.Props.VectorMapDrops
import Verif.Props.VectorMapRefusals
import Verif.Props.VectorRefusals
import Verif.Props.Walk
import Verif.Replay.Basic
import Verif.Replay.Deque
import Verif.Replay.HashTable
import Verif.Replay.List
import Verif.Replay.Text
import Verif.Replay.Tree
import Verif.Replay.Vector
import Verif.Spec.Borrow
import Verif.Spec.Collisions
import Verif.Spec.Debug
import Verif.Spec.Deque
import Verif.Spec.EntryCalls
import Verif.Spec.FiniteMap
import Verif.Spec.FiniteMapLemmas
import Verif.Spec.Float
import Verif.Spec.Fnv
import Verif.Spec.FormatOptions
import Verif.Spec.HashTable
import Verif.Spec.Honest
import Verif.Spec.Interleave
import Verif.Spec.Interrupt
import Verif.Spec.IterCalls
import Verif.Spec.Iterated
import Verif.Spec.KeyCalls
import Verif.Spec.KeySet
import Verif.Spec.Latin
import Verif.Spec.Layout
import Verif.Spec.Limits
import Verif.Spec.LinkedList
import Verif.Spec.Look
import Verif.Spec.Lossy
import Verif.Spec.MapLimits
import Verif.Spec.MapMoves
import Verif.Spec.Moves
import Verif.Spec.Nested
import Verif.Spec.NestedMap
import Verif.Spec.NestedText
import Verif.Spec.NestedTree
import Verif.Spec.Objects
import Verif.Spec.Order
import Verif.Spec.Panic
import Verif.Spec.PartSweep
import Verif.Spec.Pointers
import Verif.Spec.Pool
import Verif.Spec.Pretty
import Verif.Spec.Printing
import Verif.Spec.RedBlack
import Verif.Spec.Refusals
import Verif.Spec.Refused
import Verif.Spec.Sequence
import Verif.Spec.Slice
import Verif.Spec.StringKeys
import Verif.Spec.Sweep
import Verif.Spec.Text
import Verif.Spec.TextBytes
import Verif.Spec.TextEdit
import Verif.Spec.TextLimits
import Verif.Spec.Threads
import Verif.Spec.Tree
import Verif.Spec.TreeBorrow
import Verif.Spec.Valid
import Verif.Text.Grants
import Verif.Text.InPlace
import Verif.Text.InPlaceProofs
import Verif.Text.Model
import Verif.Text.Proofs
import Verif.Text.Utf8
import Verif.Threads.Model
import Verif.Tree.Build
import Verif.Tree.Calls
import Verif.Tree.Cost
import Verif.Tree.Find
import Verif.Tree.Fixed
import Verif.Tree.Free
import Verif.Tree.FreeDepth
import Verif.Tree.Iter
import Verif.Tree.Model
import Verif.Tree.Remove
import Verif.Tree.Rep
import Verif.Tree.WalkCost
import Verif.Tree.Word
import Verif.Tree.WordProofs
import Verif.Unwind.Collect
import Verif.Unwind.CollectFacts
import Verif.Unwind.CollectMap
import Verif.Unwind.Deque
import Verif.Unwind.Hash
import Verif.Unwind.Keys
import Verif.Unwind.KeysFacts
import Verif.Unwind.KeysLoose
import Verif.Unwind.KeysMove
import Verif.Unwind.KeysRun
import Verif.Unwind.List
import Verif.Unwind.Model
import Verif.Unwind.Vector
import Verif.Vector.CallCost
import Verif.Vector.Exact
import Verif.Vector.Foreign
import Verif.Vector.Grants
import Verif.Vector.Iter
import Verif.Vector.Model
import Verif.Vector.Proofs
import Verif.Vector.Refine
import Verif.Vector.Refused
import Verif.Vector.Run
import Verif.Vector.Slices
import Verif.Vector.SlicesProofs
import Verif.VectorMap.Any
import Verif.VectorMap.Cost
import Verif.VectorMap.Drops
import Verif.VectorMap.Grants
import Verif.VectorMap.Model
import Verif.VectorMap.Moves
import Verif.VectorMap.Oracle
import Verif.VectorMap.Proofs
import Verif.VectorMap.Restrict
