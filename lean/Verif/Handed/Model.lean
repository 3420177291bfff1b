import Verif.FixedVector.Model
import Verif.Vector.Model
import Verif.Deque.Model
import Verif.LinkedList.Model
import Verif.Pool.Model
import Verif.HashTable.Model

/-!
# Containers that C++ code built

The structs of the crate have the layout of EASTL's classes (`#[repr(C)]`: src/vector/mod.rs:20-30,
src/deque/mod.rs:13-20, src/list/mod.rs:17-24, src/internal/hash_table/mod.rs:29-45), so that a
container may be built by C++ code and used by Rust code.  This file says what such a container
looks like in memory.  It follows the comments and layouts in /repo and the documented class
layouts of EASTL, whose source is not part of /repo; the allocator is the one Rust frees with.
-/

set_option autoImplicit false

namespace Verif

variable {α K V N D : Type}

/-- A vector (struct: src/vector/mod.rs:20-30) with the elements `xs` and room for `cap`, in the
block `bs`: C++ may have reserved any room, and leaves the three pointers null if it never
allocated. -/
def HandedVec (m : Mem α) (v : Vec) (bs : List Nat) (cap : Nat) (xs : List α) : Prop :=
  (bs = [] ∧ cap = 0 ∧ xs = [] ∧ v = ⟨.null, .null, .null⟩) ∨
  ∃ b blk, bs = [b] ∧ m.live b = some blk ∧ blk.region = .heap ∧ blk.size = cap ∧ xs.length ≤ cap ∧
    (∀ i x, xs[i]? = some x → blk.cells i = some x) ∧
    v = ⟨.loc b 0, .loc b xs.length, .loc b cap⟩

/-- A string (struct: src/string/mod.rs:23-25): as a vector of bytes, but the block has room for one
byte more than the capacity says, which is how it is given back
(src/string/null_terminator_allocator.rs), and the byte after the text is 0. -/
def HandedStr (m : Mem UInt8) (v : Vec) (bs : List Nat) (cap : Nat) (xs : List UInt8) : Prop :=
  (bs = [] ∧ cap = 0 ∧ xs = [] ∧ v = ⟨.null, .null, .null⟩) ∨
  ∃ b blk, bs = [b] ∧ m.live b = some blk ∧ blk.region = .heap ∧ blk.size = cap + 1 ∧
    xs.length ≤ cap ∧ (∀ i x, (xs ++ [0])[i]? = some x → blk.cells i = some x) ∧
    v = ⟨.loc b 0, .loc b xs.length, .loc b cap⟩

/-- A fixed vector (struct: src/fixed_vector/mod.rs:20-24) whose buffer is block `f.buf` of the
memory: its elements are in the buffer, or in a block from the overflow allocator; the allocator's
pool pointer names the buffer.  `bs` is the overflow block, if there is one. -/
structure HandedFixedVec (m : Mem α) (f : FVec) (bs : List Nat) (cap : Nat) (xs : List α) :
    Prop where
  pool : f.pool = .loc f.buf 0
  pos : 0 < f.count
  buffer : ∃ blk, m.live f.buf = some blk ∧ blk.region = .inline ∧ blk.size = f.count
  elems : ∃ b blk, f.vec = ⟨.loc b 0, .loc b xs.length, .loc b cap⟩ ∧ m.live b = some blk ∧
    xs.length ≤ cap ∧ (∀ i x, xs[i]? = some x → blk.cells i = some x) ∧
    (b = f.buf ∧ bs = [] ∧ cap = f.count ∨
      b ≠ f.buf ∧ bs = [b] ∧ blk.region = .heap ∧ blk.size = cap)

/-- A deque (struct: src/deque/mod.rs:13-20, iterators: src/deque/iter.rs:45-52) with the elements
`xs`: the pointer array is block `pb`, and names the subarrays `bl` from slot `lo` on; the first
element is in cell `bo` of the first of them.  Slots outside the range are not looked at. -/
structure HandedDeque (S : Nat) (m : DMem α) (d : Deque) (pb lo bo : Nat) (bl : List Nat)
    (xs : List α) : Prop where
  ptrs : d.ptrs = .loc pb 0
  array : ∃ blk, m.p.live pb = some blk ∧ blk.region = .heap ∧ blk.size = d.size
  room : lo + bl.length ≤ d.size
  slots : ∀ i b, bl[i]? = some b → m.p.read (.loc pb (lo + i)) = .ok (.loc b 0)
  distinct : bl.Nodup
  subs : ∀ b ∈ bl, ∃ blk, m.t.live b = some blk ∧ blk.region = .heap ∧ blk.size = S
  offset : bo < S
  begin : ∀ b, bl[0]? = some b → d.b = ⟨.loc b bo, .loc b 0, .loc b S, .loc pb lo⟩
  finish : ∀ b, bl[(bo + xs.length) / S]? = some b →
    d.e = ⟨.loc b ((bo + xs.length) % S), .loc b 0, .loc b S, .loc pb (lo + (bo + xs.length) / S)⟩
  count : bl.length = (bo + xs.length) / S + 1
  elems : ∀ i x b, xs[i]? = some x → bl[(bo + i) / S]? = some b →
    m.t.read (.loc b ((bo + i) % S)) = .ok x

/-- Blocks of the default allocator, `size` bytes each, that hold one node each. -/
structure HandedNodes (m : NMem N D) (size align : Nat) (ps : List Nat) : Prop where
  wf : m.WF
  distinct : ps.Nodup
  reg : ∀ p ∈ ps, m.reg p = some ⟨size, align, true⟩
  node : ∀ p ∈ ps, m.node p ≠ none
  solid : ∀ p ∈ ps, ∀ q, p < q → q < p + size → m.node q = none
  aligned : ∀ p ∈ ps, 0 < align → align ∣ p

/-- A list (struct: src/list/mod.rs:17-24, nodes: src/list/node.rs) with the elements `xs` in the
nodes `ps`: together with the sentinel in the object they form a ring, linked both ways. -/
structure HandedList (size align : Nat) (m : LMem α) (l : LList Unit) (ps : List Nat)
    (xs : List α) : Prop where
  nodes : HandedNodes m size align ps
  sentinel : l.head ∉ ps
  ring : ∀ i a b, (l.head :: ps ++ [l.head])[i]? = some a →
    (l.head :: ps ++ [l.head])[i + 1]? = some b → LMem.next m a = .ok b ∧ LMem.prev m b = .ok a
  elems : ps.map (LMem.val m) = xs.map Except.ok
  size : l.size = xs.length

/-- The free list of a pool (`Link`, src/fixed_pool/mod.rs:15-18) that starts at `p` consists of `fs`. -/
def HandedFree (m : NMem N D) : Nat → List Nat → Prop
  | p, [] => p = 0
  | p, f :: fs => p = f ∧ p ≠ 0 ∧ ∃ q, m.link p = some q ∧ HandedFree m q fs

/-- The slots of a pool, of `size` bytes from `start` on. -/
def poolSlots (start size n : Nat) : List Nat := (List.range n).map fun j => start + j * size

/-- A fixed list (struct: src/fixed_list/mod.rs:20-29, allocator: src/fixed_pool/with_overflow.rs:8-12)
with the elements `xs` in the nodes `ps`.  Its pool has `c` slots from `start` on, of which the first
`k` have been used; those not occupied by elements are in the free list `fs`.  Nodes outside the
slots are from the overflow allocator.  The object does not end with the last slot: see C43. -/
structure HandedFixedList (size align start c : Nat) (m : LMem α) (l : LList OPool)
    (ps fs : List Nat) (xs : List α) : Prop where
  pos : 0 < size
  start0 : start ≠ 0
  object : ∃ obj r, m.reg obj = some r ∧ obj ∉ ps ∧ obj ≤ l.al.poolBegin ∧
    l.al.poolBegin ≤ start ∧ start + c * size < obj + r.size
  pool : ∃ k, k ≤ c ∧ l.al.pool.next = start + k * size ∧
    ((ps.filter fun p => start ≤ p ∧ p < start + c * size) ++ fs).Perm (poolSlots start size k)
  capacity : l.al.pool.capacity = start + c * size
  free : HandedFree m l.al.pool.head fs
  inline : ∀ p, start ≤ p → p < start + c * size → (m.node p ≠ none ↔ p ∈ ps)
  overflow : HandedNodes m size align (ps.filter fun p => ¬ (start ≤ p ∧ p < start + c * size))
  sentinel : l.head ∉ ps
  distinct : ps.Nodup
  ring : ∀ i a b, (l.head :: ps ++ [l.head])[i]? = some a →
    (l.head :: ps ++ [l.head])[i + 1]? = some b → LMem.next m a = .ok b ∧ LMem.prev m b = .ok a
  elems : ps.map (LMem.val m) = xs.map Except.ok
  size : l.size = xs.length

/-- The chain that starts at `p` consists of `ns` (address, key, value) and ends in null. -/
def HandedChain (m : HNMem K V) : Nat → List (Nat × K × V) → Prop
  | p, [] => p = 0
  | p, (a, k, v) :: ns => p = a ∧ p ≠ 0 ∧ ∃ q, m.node p = some (some ⟨k, v, q⟩) ∧ HandedChain m q ns

/-- A hash table (struct: src/internal/hash_table/mod.rs:29-45, nodes:
src/internal/hash_table/node.rs) with the chains `cs`, one for each bucket.  Without entries it may
have no array of its own, and then points to the static one.  C++ may have asked for any number of
buckets and any `mnNextResize`. -/
structure HandedTable (E : HEnv K V Unit) (m : HMem K V) (t : HTable Unit) (bs : List Nat)
    (cs : List (List (Nat × K × V))) : Prop where
  nodes : HandedNodes m.n E.size E.align (cs.flatten.map Prod.fst)
  array : (bs = [] ∧ t.buckets = .loc E.stat 0 ∧ t.bucketCount = 1 ∧ t.nextResize = 0 ∧ cs = [[]]) ∨
    ∃ b, bs = [b] ∧ b ≠ E.stat ∧ t.buckets = .loc b 0 ∧ 1 < t.bucketCount ∧
      ∃ blk, m.b.live b = some blk ∧ blk.size = t.bucketCount + 1 ∧
        blk.cells t.bucketCount = some (2 ^ 64 - 1) ∧
        ∀ i c, cs[i]? = some c → ∃ p, blk.cells i = some p ∧ HandedChain m.n p c
  static : ∃ blk, m.b.live E.stat = some blk ∧ blk.size = 2 ∧ blk.cells 0 = some 0 ∧
    blk.cells 1 = some (2 ^ 64 - 1)
  buckets : cs.length = t.bucketCount
  homes : ∀ i c, cs[i]? = some c → ∀ n ∈ c, E.hash n.2.1 % t.bucketCount = i
  distinct : (cs.flatten.map fun n => n.2.1).Pairwise fun a b => E.eq a b = false
  count : t.count = cs.flatten.length

end Verif
