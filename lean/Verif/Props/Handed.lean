import Verif.Handed.Proofs
import Verif.Props.Pool
import Verif.Props.Sweep
import Verif.Props.Text
import Verif.Props.VectorMap
import Verif.Props.Vector

/-!
# C128: containers that C++ code built

The theorems about histories elsewhere start from a container that Rust code created.  Here the
container was built by C++ code (`Handed/Model.lean` says what it looks like): it may be in states
Rust code never produces, such as a vector with any spare room, a deque whose first element is
anywhere in its subarray, or a hash table with any number of buckets.
-/

set_option autoImplicit false

namespace Verif
open Spec

variable {α K V : Type}

/-- C128 for vectors.  Every history of calls on a vector that C++ built returns what it returns on
its elements as a mathematical sequence, or panics if that does; dropping the vector then gives back
exactly its block, and every element that was there or was moved in is handed back to the caller or
dropped, exactly once.  (Slice copies of elements with destructors: see C07.) -/
theorem C128_handed_vector (R : RawAlloc α) (nd : Bool) {m : Mem α} {v : Vec} {bs : List Nat}
    {cap : Nat} {xs : List α} (h : HandedVec m v bs cap xs) (ops : List (SeqOp α))
    (hops : nd = true → ∀ op ∈ ops, op.isSlice = false) :
    v.len = .ok xs.length ∧ v.capacity = .ok cap ∧ v.asSlice m = .ok xs ∧
    match SeqOp.run ops xs with
    | .error e => Vec.run (defaultAllocator R) nd ops v m = .error e
    | .ok (outs, ys) => ∃ v' m' m'' drops,
        Vec.run (defaultAllocator R) nd ops v m = .ok (outs, v', m') ∧ v'.asSlice m' = .ok ys ∧
        v'.clear (defaultAllocator R) nd m' = .ok (Vec.new, m'') ∧
        (∀ b, m''.live b = if b ∈ bs then none else m.live b) ∧
        m''.dropped = m.dropped ++ drops ∧
        (nd = true → (xs ++ ops.flatMap SeqOp.movedIn).Perm (outs.flatMap Out.movedOut ++ drops)) := by
  have hi := h.inv
  refine ⟨hi.len, hi.capacity, hi.slice, ?_⟩
  have hr := VInv.run (defaultAllocator_lawful R) nd ops hops hi
  cases hs : SeqOp.run ops xs with
  | error e => rw [hs] at hr; exact hr
  | ok r =>
    obtain ⟨os, ys⟩ := r
    rw [hs] at hr
    obtain ⟨v', m', ds, cap', e1, e2, e3, e4⟩ := hr
    obtain ⟨m'', f1, _, f2, _, _, f3⟩ := e2.clear (defaultAllocator_lawful R) nd
    refine ⟨v', m', m'', ds ++ (if nd then ys else []), e1, e2.slice, f1, fun b => f2 b (by simp), ?_, ?_⟩
    · rw [f3.dropped, e3, List.append_assoc]
    · intro hn
      subst hn
      exact List.perm_append_comm.trans (by simpa using e4 rfl)

/-- A vector with room for five holding two elements: no history of Rust calls that only pushes
leaves this capacity. -/
def handedVecMem : Mem Nat :=
  Mem.empty.setBlock 7 (some ⟨5, .heap, fun i => if i < 2 then some (10 + i) else none⟩)

example : HandedVec handedVecMem ⟨.loc 7 0, .loc 7 2, .loc 7 5⟩ [7] 5 [10, 11] :=
  .inr ⟨7, _, rfl, rfl, rfl, rfl, by decide, by
    intro i x hx
    match i, hx with
    | 0, h => exact h
    | 1, h => exact h, rfl⟩

example : (do
    let (os, v, m) ← Vec.run (defaultAllocator RawAlloc.bump) true
      [.push 12, .push 13, .push 14, .push 15, .remove 0, .slice] ⟨.loc 7 0, .loc 7 2, .loc 7 5⟩
      handedVecMem
    let c ← v.capacity
    let (_, m) ← v.clear (defaultAllocator RawAlloc.bump) true m
    .ok (os, c, m.dropped, (m.live 7).isSome)) =
  (.ok ([.unit, .unit, .unit, .unit, .elem (some 10), .list [11, 12, 13, 14, 15]], 10,
    [11, 12, 13, 14, 15], false) : Exec (List (Out Nat) × Nat × List Nat × Bool)) := rfl

/-- C128 for strings of ASCII characters.  A string that C++ built reads as its text; every history of
calls with ASCII arguments (other than `assign`: see C17) on it returns what it returns on the
text, or panics if that does, and dropping the string then gives back exactly its block. -/
theorem C128_handed_string (R : RawAlloc UInt8) {m : Mem UInt8} {v : Vec} {bs : List Nat}
    {cap : Nat} {text : List Char} (htext : ∀ c ∈ text, c.toNat < 128)
    (h : HandedStr m v bs cap (utf8 text)) (ops : List StrOp)
    (hops : ∀ op ∈ ops, op.Ascii ∧ op.isAssign = false) :
    v.len = .ok text.length ∧ v.asSlice m = .ok (utf8 text) ∧ Str.Terminated v m ∧
    match StrOp.run ops text with
    | .error e => Str.run (strAlloc R) ops v m = .error e
    | .ok (outs, cs) => ∃ v' m' m'', Str.run (strAlloc R) ops v m = .ok (outs, v', m') ∧
        v'.asSlice m' = .ok (utf8 cs) ∧ Str.drop (strAlloc R) v' m' = .ok m'' ∧
        ∀ b, m''.live b = if b ∈ bs then none else m.live b := by
  have hi := h.inv
  have h1 := byteRun_ascii ops hops htext
  have hl : (utf8 text).length = text.length := by rw [utf8_ascii htext]; simp
  refine ⟨hl ▸ hi.len, hi.slice, h.terminated, ?_⟩
  have h2 := SInv.run (R := R) ops hi
  rw [utf8_ascii htext] at h2
  cases hr : StrOp.run ops text with
  | error e =>
    rw [hr] at h1; simp only at h1
    rw [h1] at h2; exact h2
  | ok r =>
    obtain ⟨outs, cs⟩ := r
    rw [hr] at h1; simp only at h1
    rw [h1.1] at h2
    obtain ⟨v', m', cap', he, hi'⟩ := h2
    obtain ⟨m'', hd, _, hw, _, _, _⟩ := hi'.clear (nullTerm_lawful R) false
    exact ⟨v', m', m'', he, by rw [utf8_ascii h1.2]; exact hi'.slice, by simp [Str.drop, hd],
      fun b => hw b not_false⟩

/-- "ab" with room for four characters. -/
def handedStrMem : Mem UInt8 :=
  Mem.empty.setBlock 7 (some ⟨5, .heap, fun i => ([97, 98, 0] : List UInt8)[i]?⟩)

example : HandedStr handedStrMem ⟨.loc 7 0, .loc 7 2, .loc 7 4⟩ [7] 4 (utf8 ['a', 'b']) :=
  .inr ⟨7, _, rfl, rfl, rfl, rfl, by decide +kernel, fun _ _ h => h, rfl⟩

example : (do
    let (os, v, m) ← Str.run (strAlloc RawAlloc.bump) [.push 'c', .remove 0, .push 'd', .push 'e',
      .push 'f', .len] ⟨.loc 7 0, .loc 7 2, .loc 7 4⟩ handedStrMem
    let bs ← v.asSlice m
    let m ← Str.drop (strAlloc RawAlloc.bump) v m
    .ok (os.length, bs, (m.live 7).isSome)) =
  (.ok (6, utf8 ['b', 'c', 'd', 'e', 'f'], false) : Exec (Nat × List UInt8 × Bool)) := by
  decide +kernel

/-- C128 for vector maps.  Every history of calls on a vector map that C++ built with increasing keys
returns what it returns on its entries as a finite map, the entries stay those of the finite map
and in increasing order, and dropping the map gives back exactly its block. -/
theorem C128_handed_vector_map (R : RawAlloc (K × V)) (lt eq : K → K → Bool) (hw : StrictWeak lt)
    (hc : Consistent lt eq) (nd : Bool) {m : Mem (K × V)} {v : Vec} {bs : List Nat} {cap : Nat}
    {xs : List (K × V)} (h : HandedVec m v bs cap xs) (hs : Increasing lt xs)
    (ops : List (MapOp K V)) :
    ∃ v' m' ys m'', VMap.run (defaultAllocator R) lt eq nd ops v m =
        .ok ((MapOp.run eq ops xs).1, v', m') ∧
      v'.asSlice m' = .ok ys ∧ ys.Perm (MapOp.run eq ops xs).2 ∧ Increasing lt ys ∧
      v'.clear (defaultAllocator R) nd m' = .ok (Vec.new, m'') ∧
      (∀ b, m''.live b = if b ∈ bs then none else m.live b) ∧
      m''.dropped = m'.dropped ++ if nd then ys else [] := by
  have h1 : WSorted lt xs := hs.imp fun {p q} hpq => by
    cases hqp : lt q.1 p.1 with
    | false => rfl
    | true => exact absurd (hw.trans _ _ _ hpq hqp) (by simp [hw.irrefl])
  have h2 : Distinct eq xs := hs.imp fun {p q} hpq => by
    cases hqp : eq p.1 q.1 with
    | false => rfl
    | true => exact absurd hpq (by simp [((hc p.1 q.1).1 hqp).1])
  obtain ⟨v', m', ys, e1, ⟨cap', e2⟩, e3, e4, e5⟩ :=
    MInv.run (R := R) hw hc nd ops ⟨cap, h.inv⟩ h1 h2
  obtain ⟨m'', f1, _, f2, _, _, f3⟩ := e2.clear (defaultAllocator_lawful R) nd
  exact ⟨v', m', ys, m'', e1, e2.slice, e4, e3.increasing hc e5, f1, fun b => f2 b not_false,
    f3.dropped⟩

/-- Two entries and room for five. -/
def handedMapMem : Mem (Nat × Nat) :=
  Mem.empty.setBlock 7 (some ⟨5, .heap, fun i => [(3, 30), (5, 50)][i]?⟩)

example : HandedVec handedMapMem ⟨.loc 7 0, .loc 7 2, .loc 7 5⟩ [7] 5 [(3, 30), (5, 50)] :=
  .inr ⟨7, _, rfl, rfl, rfl, rfl, by decide, fun _ _ h => h, rfl⟩

example : (do
    let (os, v, m) ← VMap.run (defaultAllocator RawAlloc.bump) (fun a b => decide (a < b))
      (fun a b => a == b) true [.insert 4 40, .get 5, .remove 3] ⟨.loc 7 0, .loc 7 2, .loc 7 5⟩
      handedMapMem
    let xs ← v.asSlice m
    .ok (os, xs)) =
  (.ok ([.val none, .val (some 50), .val (some 30)], [(4, 40), (5, 50)]) :
    Exec (List (MapOut Nat Nat) × List (Nat × Nat))) := by decide +kernel

/-- C128 for fixed vectors.  Every history of calls on a fixed vector that C++ built, whether its
elements are in its own buffer or have been moved to the overflow allocator, returns what it returns
on its elements as a mathematical sequence, or panics if that does; the buffer is never given to the
overflow allocator; destroying the fixed vector then gives back its buffer and exactly its overflow
block, and every element that was there or was moved in is handed back to the caller or dropped,
exactly once. -/
theorem C128_handed_fixed_vector (R : RawAlloc α) (nd : Bool) {m : Mem α} {f : FVec}
    {bs : List Nat} {cap : Nat} {xs : List α} (h : HandedFixedVec m f bs cap xs)
    (ops : List (SeqOp α)) (hops : nd = true → ∀ op ∈ ops, op.isSlice = false) :
    f.vec.len = .ok xs.length ∧ f.vec.capacity = .ok cap ∧ f.vec.asSlice m = .ok xs ∧
    (f.hasOverflowed = true ↔ bs ≠ []) ∧
    match SeqOp.run ops xs with
    | .error e => f.run R nd ops m = .error e
    | .ok (outs, ys) => ∃ f' m' m'' drops, f.run R nd ops m = .ok (outs, f', m') ∧
        f'.vec.asSlice m' = .ok ys ∧ m'.live f.buf ≠ none ∧
        f'.destroy R nd m' = .ok m'' ∧
        (∀ b, m''.live b = if b ∈ f.buf :: bs then none else m.live b) ∧
        m''.dropped = m.dropped ++ drops ∧
        (nd = true → (xs ++ ops.flatMap SeqOp.movedIn).Perm
          (outs.flatMap Out.movedOut ++ drops)) := by
  have hi := h.inv
  refine ⟨hi.inv.len, hi.inv.capacity, hi.inv.slice, ?_, ?_⟩
  · obtain ⟨_, _, _, b, blk, e1, _, _, _, e5⟩ := h
    rw [FVec.hasOverflowed, e1]
    rcases e5 with ⟨rfl, rfl, _⟩ | ⟨hb, rfl, _⟩ <;> simp_all
  · have hr := FInvA.run R nd ops hops hi
    cases hs : SeqOp.run ops xs with
    | error e => rw [hs] at hr; exact hr
    | ok r =>
      obtain ⟨os, ys⟩ := r
      rw [hs] at hr
      obtain ⟨f', m', ds, cap', e1, e2, _, e3, e4, e5⟩ := hr
      obtain ⟨m'', g1, g2, g3⟩ := FInv.destroy (R := R) nd (.inl e3)
      refine ⟨f', m', m'', ds ++ (if nd then ys else []), e1, e3.inv.slice,
        e3.inv.1 _ e2.symm, g1, ?_, ?_, ?_⟩
      · intro b
        rw [g2]
        rfl
      · rw [g3, e4, List.append_assoc]
      · intro hn
        subst hn
        exact List.perm_append_comm.trans (by simpa using e5 rfl)

/-- A fixed vector of two slots whose three elements have overflowed to a block with room for
seven. -/
def handedFixedMem : Mem Nat :=
  (Mem.empty.setBlock 3 (some ⟨2, .inline, fun _ => none⟩)).setBlock 7
    (some ⟨7, .heap, fun i => [10, 11, 12][i]?⟩)

example : HandedFixedVec handedFixedMem ⟨⟨.loc 7 0, .loc 7 3, .loc 7 7⟩, .loc 3 0, 3, 2⟩ [7] 7
    [10, 11, 12] where
  pool := rfl
  pos := by decide
  buffer := ⟨_, rfl, rfl, rfl⟩
  elems := ⟨7, _, rfl, rfl, by decide, fun _ _ h => h, .inr ⟨by decide, rfl, rfl, rfl⟩⟩

example : (do
    let (os, f, m) ← FVec.run RawAlloc.bump true [.push 13, .remove 0, .slice]
      ⟨⟨.loc 7 0, .loc 7 3, .loc 7 7⟩, .loc 3 0, 3, 2⟩ handedFixedMem
    let m ← f.destroy RawAlloc.bump true m
    .ok (os, m.dropped, [(m.live 3).isSome, (m.live 7).isSome])) =
  (.ok ([.unit, .elem (some 10), .list [11, 12, 13]], [11, 12, 13], [false, false]) :
    Exec (List (Out Nat) × List Nat × List Bool)) := rfl

/-- Memory without some blocks. -/
def Mem.but (m : Mem α) (bs : List Nat) : Mem α :=
  { m with
    live := worldBut m bs
    bound_ok := by intro b hb; simp only [worldBut, m.bound_ok b hb, ite_self] }

/-- C128 for deques.  Every history of calls and of loops over `iter_mut` on a deque that C++ built
runs without fault and yields what it yields on its elements as a mathematical sequence; dropping the
deque drops what was overwritten and what is then in it, exactly once each, gives back the pointer
array and every subarray but one (that one is the leak of C32), and touches no other memory. -/
theorem C128_handed_deque (E : DEnv α) {m : DMem α} {d : Deque} {pb lo bo : Nat} {bl : List Nat}
    {xs : List α} (h : HandedDeque E.S m d pb lo bo bl xs) (is : List (DeqItem α)) :
    d.len E = .ok xs.length ∧
    ∃ d' m' m'' B, Deque.runI E is d m = .ok ((DeqItem.run is xs).1, d', m') ∧
      d'.len E = .ok (DeqItem.run is xs).2.length ∧ d'.drop E m' = .ok m'' ∧
      m''.t.dropped = m.t.dropped ++
        (if E.nd then DeqItem.allOverwritten is xs ++ (DeqItem.run is xs).2 else []) ∧
      (∀ b, m''.p.live b = if b = pb then none else m.p.live b) ∧
      ∀ b, b ≠ B → m''.t.live b = if b ∈ bl then none else m.t.live b := by
  have hr := h.rep
  refine ⟨hr.length, ?_⟩
  have hinv : DInv E ⟨m.t.but bl, m.p.but [pb]⟩ m d xs := ⟨pb, lo, bo, bl, hr⟩
  obtain ⟨d', m', e1, ⟨pb', lo', bo', bl', e2⟩, e3⟩ := DInv.runI is hinv
  obtain ⟨m'', B, f1, f2, f3, f4⟩ := e2.drop
  refine ⟨d', m', m'', B, e1, e2.length, f1, ?_, ?_, ?_⟩
  · rw [f4, e3]
    cases E.nd <;> simp
  · intro b
    rw [f3]
    simp [Mem.but, worldBut]
  · intro b hb
    rw [f2.out b (by simpa using hb)]
    rfl

/-- A deque of three elements, in the last cell of one subarray and the first two of the next, the
pointers to them being at the end of the pointer array: Rust code would have put them in the
middle.  The other slots hold anything, here nothing. -/
def handedDequeMem : DMem Nat where
  t := (Mem.empty.setBlock 5 (some ⟨4, .heap, fun i => if i = 3 then some 10 else none⟩)).setBlock 6
    (some ⟨4, .heap, fun i => if i < 2 then some (11 + i) else none⟩)
  p := Mem.empty.setBlock 9
    (some ⟨8, .heap, fun i => if i = 6 then some (.loc 5 0) else if i = 7 then some (.loc 6 0) else none⟩)

/-- The deque object. -/
def handedDeque : Deque :=
  ⟨.loc 9 0, 8, ⟨.loc 5 3, .loc 5 0, .loc 5 4, .loc 9 6⟩, ⟨.loc 6 2, .loc 6 0, .loc 6 4, .loc 9 7⟩⟩

example : HandedDeque 4 handedDequeMem handedDeque 9 6 3 [5, 6] [10, 11, 12] where
  ptrs := rfl
  array := ⟨_, rfl, rfl, rfl⟩
  room := by decide
  slots i b h := by
    match i, h with
    | 0, h => cases h; rfl
    | 1, h => cases h; rfl
  distinct := by decide
  subs b h := by
    simp at h
    rcases h with rfl | rfl
    · exact ⟨_, rfl, rfl, rfl⟩
    · exact ⟨_, rfl, rfl, rfl⟩
  offset := by decide
  begin b h := by cases h; rfl
  finish b h := by cases h; rfl
  count := by decide
  elems i x b hx hb := by
    match i, hx with
    | 0, hx => cases hx; cases hb; rfl
    | 1, hx => cases hx; cases hb; rfl
    | 2, hx => cases hx; cases hb; rfl

example : (do
    let (os, _, _) ← Deque.runI ⟨4, true, RawAlloc.bump, RawAlloc.bump⟩
      [.sweep [(.next, 20), (.nextBack, 22), (.next, 21), (.next, 0)], .call (.pushBack 23),
        .call (.pushBack 24), .call (.pushBack 25), .call (.pushFront 19), .call (.remove 1),
        .call .popBack, .call .len] handedDeque handedDequeMem
    .ok (os.map fun s => match s with | .out o => [o] | .saw xs => xs.map .elem)) =
  (.ok [[.elem (some 10), .elem (some 12), .elem (some 11), .elem none], [.unit], [.unit], [.unit],
    [.unit], [.elem (some 20)], [.elem (some 25)], [.nat 5]] : Exec (List (List (Out Nat)))) := rfl

/-- C128 for lists.  Every history of calls and of loops over `iter_mut` on a list that C++ built,
with its nodes in any blocks of the default allocator, runs without fault and yields what it yields
on its elements as a mathematical sequence; dropping the list gives back every node, those of C++
included, and no other memory, and drops every element exactly once.  (`listEnv … false`: freeing
does not check the layout, which is the fault of C39.) -/
theorem C128_handed_list (P : Placer (LNode α) α) {size : Nat} (hsz : 0 < size) (align : Nat)
    (nd : Bool) {m : LMem α} {l : LList Unit} {ps : List Nat} {xs : List α}
    (h : HandedList size align m l ps xs) (is : List (ListItem α)) :
    let E := listEnv P size align nd false
    ∃ l' m' m'', LList.runI E is l m = .ok ((ListItem.run is xs).1, l', m') ∧
      l'.size = (ListItem.run is xs).2.length ∧ l'.drop E m' = .ok m'' ∧
      m''.dropped = m.dropped ++
        (if nd then ListItem.allDiscarded is xs ++ (ListItem.run is xs).2 else []) ∧
      (∀ q, m''.reg q = if q ∈ ps then none else m.reg q) ∧
      ∀ q, q ≠ l.head → m''.node q = if q ∈ ps then none else m.node q := by
  intro E
  have L : LLaw E (DefInv (memBut m ps) size align) := listEnv_law P align nd hsz _
  obtain ⟨l', m', ps', e1, e2, e3, e4, e5⟩ := LRep.runI L is h.rep
  obtain ⟨l2, m'', f1, f2, f3, f4, f5⟩ := e3.clear L
  have hd : DefInv (memBut m ps) size align () m'' [] := f4.inv
  refine ⟨l', m', m'', e1, e3.size, by simp [LList.drop, f1], ?_, ?_, ?_⟩
  · rw [f3, e5, show E.nd = nd from rfl]
    cases nd <;> simp
  · intro q
    rw [hd.done]; rfl
  · intro q hq
    by_cases hn : (memBut m ps).node q = none
    · exact ((hd.node q (by simp)).2 hn).trans hn.symm
    · have hm : q ∉ ps := by intro hm; simp [memBut, hm] at hn
      rw [if_neg hm]
      simp only [memBut, if_neg hm] at hn
      rw [e2] at f5
      exact ((e4.trans f5) q hn (by simpa using ⟨hq, hm⟩)).2

/-- A list of two elements in the nodes at 192 and 128, in this order, of an object at 64. -/
def handedListMem : LMem Nat where
  node a :=
    if a = 64 then some ⟨some 192, some 128, none⟩
    else if a = 192 then some ⟨some 128, some 64, some 10⟩
    else if a = 128 then some ⟨some 64, some 192, some 11⟩ else none
  link := fun _ => none
  reg a := if a = 64 then some ⟨32, 8, false⟩
    else if a = 128 ∨ a = 192 then some ⟨24, 8, true⟩ else none
  top := 216
  top_ok := by
    intro a r h
    split_ifs at h with h1 h2
    · cases h; subst h1; decide
    · cases h; simp only; omega
  dropped := []

theorem handedListMem_list : HandedList 24 8 handedListMem ⟨64, 2, ()⟩ [192, 128] [10, 11] where
  nodes :=
    { wf :=
        { disj := by
            intro a b r r' h1 h2 hne
            unfold handedListMem at h1 h2
            dsimp only at h1 h2
            split_ifs at h1 h2 <;> cases h1 <;> cases h2 <;> simp only <;> omega
          cover := by
            intro q hq
            unfold handedListMem at hq ⊢
            dsimp only at hq ⊢
            split_ifs at hq with h1 h2 h3
            · exact ⟨64, ⟨32, 8, false⟩, by simp, by omega, by simp only; omega⟩
            · exact ⟨192, ⟨24, 8, true⟩, by simp, by omega, by simp only; omega⟩
            · exact ⟨128, ⟨24, 8, true⟩, by simp, by omega, by simp only; omega⟩
            · exact absurd rfl hq
          null := by
            intro a r h
            unfold handedListMem at h
            dsimp only at h
            split_ifs at h <;> omega }
      distinct := by decide
      reg := by
        intro p hp
        simp at hp
        rcases hp with rfl | rfl <;> rfl
      node := by
        intro p hp
        simp at hp
        rcases hp with rfl | rfl <;> simp [handedListMem]
      solid := by
        intro p hp q h1 h2
        simp at hp
        unfold handedListMem
        dsimp only
        rw [if_neg (by omega), if_neg (by omega), if_neg (by omega)]
      aligned := by
        intro p hp _
        simp at hp
        rcases hp with rfl | rfl <;> decide }
  sentinel := by decide
  ring i a b ha hb := by
    match i, ha, hb with
    | 0, ha, hb => cases ha; cases hb; exact ⟨rfl, rfl⟩
    | 1, ha, hb => cases ha; cases hb; exact ⟨rfl, rfl⟩
    | 2, ha, hb => cases ha; cases hb; exact ⟨rfl, rfl⟩
    | i + 3, ha, hb => simp at hb
  elems := rfl
  size := rfl

example : (do
    let (os, l, m) ← LList.runI (listEnv Placer.bump 24 8 true false)
      [.call .front, .call (.pushBack 12), .sweep [20], .call .popBack] ⟨64, 2, ()⟩ handedListMem
    let m ← l.drop (listEnv Placer.bump 24 8 true false) m
    .ok (os.map fun s => match s with | .out o => [o] | .saw xs => xs.map .elem, m.dropped,
      [64, 128, 192, 216].map fun a => (m.reg a).isSome)) =
  (.ok ([[.elem (some 10)], [.unit], [.elem (some 10)], [.elem (some 12)]], [10, 20, 11],
    [true, false, false, false]) : Exec (List (List (Out Nat)) × List Nat × List Bool)) := rfl

/-- C128 for fixed lists.  Every history of calls and of loops over `iter_mut` on a fixed list that C++
built, with nodes in its buffer in any order, nodes from the overflow allocator and a free list in any
order, runs without fault and yields what it yields on its elements as a mathematical sequence;
dropping the list drops every element exactly once, gives back the nodes from the overflow
allocator, those of C++ included, and no other memory. -/
theorem C128_handed_fixed_list (P : Placer (LNode α) α) (nd : Bool) {size align start c : Nat}
    {m : LMem α} {l : LList OPool} {ps fs : List Nat} {xs : List α}
    (h : HandedFixedList size align start c m l ps fs xs) (is : List (ListItem α)) :
    let E := fixedListEnv P size align nd
    ∃ l' m' m'', LList.runI E is l m = .ok ((ListItem.run is xs).1, l', m') ∧
      l'.size = (ListItem.run is xs).2.length ∧ l'.drop E m' = .ok m'' ∧
      m''.dropped = m.dropped ++
        (if nd then ListItem.allDiscarded is xs ++ (ListItem.run is xs).2 else []) ∧
      (∀ q, m''.reg q =
        if q ∈ ps ∧ ¬ (start ≤ q ∧ q < start + c * size) then none else m.reg q) ∧
      ∀ q, q ≠ l.head → m''.node q = if q ∈ ps then none else m.node q := by
  intro E
  obtain ⟨hr, obj, r, R⟩ := h.rep
  have L : LLaw E (OInv (memBut2 m ps (ps.filter fun p => ¬ (start ≤ p ∧ p < start + c * size)))
      l.al.poolBegin start size align c) := OInv.law R P LNode.uninit (size * baseSize) baseAlign
  obtain ⟨l', m', ps', e1, e2, e3, e4, e5⟩ := LRep.runI L is hr
  obtain ⟨l2, m'', f1, f2, f3, f4, f5⟩ := e3.clear L
  obtain ⟨pp, qs, fs', k, mB, hp, hI⟩ := f4.inv
  obtain ⟨rfl, rfl⟩ := List.append_eq_nil_iff.1 (List.nil_perm.1 hp)
  refine ⟨l', m', m'', e1, e3.size, by simp [LList.drop, f1], ?_, ?_, ?_⟩
  · rw [f3, e5, show E.nd = nd from rfl]
    cases nd <;> simp
  · intro q
    rw [hI.over.done, hI.reg]
    simp only [memBut2, memBut, List.mem_filter, decide_eq_true_eq]
  · intro q hq
    by_cases hm : q ∈ ps
    · rw [if_pos hm, hI.over.node q (by simp), hI.node q (by simp)]
      simp [memBut2, hm]
    · rw [if_neg hm]
      by_cases hn : m.node q = none
      · rw [hn, hI.over.node q (by simp), hI.node q (by simp)]
        simp [memBut2, hm, hn]
      · rw [e2] at f5
        exact ((e4.trans f5) q hn (by simpa using ⟨hq, hm⟩)).2

/-- A fixed list of two slots, the first of which (at 128) is free again; its elements are in the
overflow node at 256 and in the slot at 152, in this order. -/
def handedFixedListMem : LMem Nat where
  node a :=
    if a = 64 then some ⟨some 256, some 152, none⟩
    else if a = 256 then some ⟨some 152, some 64, some 10⟩
    else if a = 152 then some ⟨some 64, some 256, some 11⟩ else none
  link a := if a = 128 then some 0 else none
  reg a := if a = 64 then some ⟨136, 8, false⟩
    else if a = 256 then some ⟨24, 8, true⟩ else none
  top := 280
  top_ok := by
    intro a r h
    split_ifs at h with h1 h2
    · cases h; subst h1; decide
    · cases h; simp only; omega
  dropped := []

theorem handedFixedListMem_list : HandedFixedList 24 8 128 2 handedFixedListMem
    ⟨64, 2, ⟨⟨128, 176, 176⟩, 128⟩⟩ [256, 152] [128] [10, 11] where
  pos := by decide
  start0 := by decide
  object := ⟨64, ⟨136, 8, false⟩, rfl, by decide, by decide, by decide, by decide⟩
  pool := ⟨2, by decide, rfl, by decide⟩
  capacity := rfl
  free := ⟨rfl, by decide, 0, rfl, rfl⟩
  inline := by
    intro p h1 h2
    unfold handedFixedListMem
    simp only [List.mem_cons, List.not_mem_nil, or_false]
    split_ifs <;> simp <;> omega
  overflow :=
    { wf :=
        { disj := by
            intro a b r r' h1 h2 hne
            unfold handedFixedListMem at h1 h2
            dsimp only at h1 h2
            split_ifs at h1 h2 <;> cases h1 <;> cases h2 <;> simp only <;> omega
          cover := by
            intro q hq
            unfold handedFixedListMem at hq ⊢
            dsimp only at hq ⊢
            split_ifs at hq with h1 h2 h3
            · exact ⟨64, ⟨136, 8, false⟩, by simp, by omega, by simp only; omega⟩
            · exact ⟨256, ⟨24, 8, true⟩, by simp, by omega, by simp only; omega⟩
            · exact ⟨64, ⟨136, 8, false⟩, by simp, by omega, by simp only; omega⟩
            · exact absurd rfl hq
          null := by
            intro a r h
            unfold handedFixedListMem at h
            dsimp only at h
            split_ifs at h <;> omega }
      distinct := by decide
      reg := by
        intro p hp
        obtain rfl : p = 256 := by simpa using hp
        rfl
      node := by
        intro p hp
        obtain rfl : p = 256 := by simpa using hp
        decide
      solid := by
        intro p hp q h1 h2
        obtain rfl : p = 256 := by simpa using hp
        unfold handedFixedListMem
        dsimp only
        split_ifs <;> first | omega | rfl
      aligned := by
        intro p hp _
        obtain rfl : p = 256 := by simpa using hp
        decide }
  sentinel := by decide
  distinct := by decide
  ring := by
    intro i a b ha hb
    match i, ha, hb with
    | 0, ha, hb => cases ha; cases hb; exact ⟨rfl, rfl⟩
    | 1, ha, hb => cases ha; cases hb; exact ⟨rfl, rfl⟩
    | 2, ha, hb => cases ha; cases hb; exact ⟨rfl, rfl⟩
  elems := rfl
  size := rfl

example : (do
    let (os, l, m) ← LList.runI (fixedListEnv Placer.bump 24 8 true)
      [.sweep [20], .call (.pushBack 12), .call (.pushBack 13), .call .popFront]
      ⟨64, 2, ⟨⟨128, 176, 176⟩, 128⟩⟩ handedFixedListMem
    let as ← l.addrs m
    let m ← l.drop (fixedListEnv Placer.bump 24 8 true) m
    let seen := os.flatMap fun s =>
      match s with
      | .out (.elem (some x)) => [x]
      | .saw xs => xs.filterMap id
      | _ => []
    .ok [seen, as, m.dropped, [64, 256, 2248].filter fun a => (m.reg a).isSome]) =
  (.ok [[10, 20], [152, 128, 2248], [10, 11, 12, 13], [64]] : Exec (List (List Nat))) := by
  decide +kernel

/-- C128.  The limit on the entries is exact: up to it the growth policy finds a prime whatever the
number of buckets and the threshold, and past it there are a number of buckets and a threshold for
which it panics. -/
theorem C128_limit_is_exact :
    (∀ resize buckets c, c < 2147483776 →
      ∃ r, getRehashRequired resize buckets c 1 = .ok r) ∧
    getRehashRequired 0 2147483648 2147483776 1 = .error .panic := by
  refine ⟨fun resize buckets c hc => ?_, grow_no_room⟩
  rcases policy_any resize buckets c with ⟨r, nr, h, _⟩ | ⟨h, _⟩
  · exact ⟨_, h⟩
  · omega

/-- C128 for hash maps.  Every history of calls, with at most 2147483776 entries at any time, on a hash
table that C++ built, with any number of buckets and any resize threshold, returns what it returns on
the finite map of its entries; iteration then yields exactly the entries of that map; and dropping
the table gives back every node, those of C++ included, touches no other memory than nodes and arrays
of the table, and drops every key and value exactly once.  (The bucket arrays leak: C55.) -/
theorem C128_handed_hash {E : HEnv K V Unit} (hA : ∃ P, E.A = defaultNAlloc P none true)
    (hsz : 0 < E.size) (he : PartialEquiv E.eq) (hh : ∀ a b, E.eq a b = true → E.hash a = E.hash b)
    {m : HMem K V} {t : HTable Unit} {bs : List Nat} {cs : List (List (Nat × K × V))}
    (h : HandedTable E m t bs cs) (ops : List (MapOp K V))
    (hpk : MapOp.peak E.eq ops (cs.flatten.map Prod.snd) ≤ 2147483776) :
    let s := cs.flatten.map Prod.snd
    ∃ (t' : HTable Unit) (m' : HMem K V) (it : HIter) (es : List (K × V)) (a : Unit) (m'' : HMem K V)
      (D : List (K ⊕ V)), t.run E ops m = .ok ((MapOp.run E.eq ops s).1, t', m') ∧
      t'.iter m' = .ok it ∧ es.Perm (MapOp.run E.eq ops s).2 ∧
      (∀ n, ∃ it', it.run m' n = .ok ((List.range n).map fun i => es[i]?, it')) ∧
      t'.drop E m' = .ok (a, m'') ∧
      (∀ q, m''.n.reg q = if q ∈ cs.flatten.map Prod.fst then none else m.n.reg q) ∧
      (∀ q, m''.n.node q = if q ∈ cs.flatten.map Prod.fst then none else m.n.node q) ∧
      (∀ b, m.b.live b ≠ none → b ∉ bs → m''.b.live b = m.b.live b) ∧
      m''.n.dropped.Perm (m.n.dropped ++ D.filter fun x =>
        match x with | .inl _ => E.ndK | .inr _ => E.ndV) ∧
      (contents s ++ MapOp.allTaken E.eq ops s).Perm (MapOp.allGiven E.eq ops s ++ D) := by
  intro s
  obtain ⟨P, hP⟩ := hA
  have hr := h.rep
  have L : HLaw E (DefInv (memBut m.n (addrs cs)) E.size E.align) := by
    unfold HLaw
    rw [hP]
    exact defaultNAlloc_law P none true hsz (by simp) _
  obtain ⟨t', m', pk, bl, cs', e1, e2, e3, e4, e5⟩ := HRepP.run PolicyLoose.law L he hh ops hr hpk
  obtain ⟨it, c, ds, f1, f2, f3⟩ := e2.core.iter
  obtain ⟨a, m'', g1, g2, g3⟩ := e2.freeBuckets L
  have hinv := g2.inv
  have hnil : addrs (List.replicate t'.bucketCount ([] : List (Nat × K × V))) = [] := by
    simp [addrs]
  rw [hnil] at hinv
  refine ⟨t', m', it, ents cs', a, m'',
    MapOp.allDrops E.eq ops s ++ contents (MapOp.run E.eq ops s).2, e1, f1, e3, ?_,
    by simp [HTable.drop, g1], ?_, ?_, ?_, ?_, ?_⟩
  · intro n
    obtain ⟨it', _, _, k1, _, _⟩ := f2.run n
    rw [f3] at k1
    exact ⟨it', k1⟩
  · intro q; rw [hinv.done]; rfl
  · intro q
    by_cases hn : (memBut m.n (addrs cs)).node q = none
    · exact ((hinv.node q (by simp)).2 hn).trans hn.symm
    · exact (g2.keep q hn).2
  · intro b hb hbs
    have hw : worldBut m.b bs b = m.b.live b := by simp [worldBut, hbs]
    rw [g2.out b, hw]
    intro hm
    have := (g2.blNew b hm).1
    rw [hw] at this
    exact hb this
  · have hneeds : (fun x : K ⊕ V => match x with | .inl _ => E.ndK | .inr _ => E.ndV) = E.needs := by
      funext x; cases x <;> rfl
    rw [hneeds, List.filter_append, ← List.append_assoc]
    exact g3.trans (e4.append ((contents_perm e3).filter _))
  · have := conserve he ops (s := s) hr.core.distinct
    refine this.trans ?_
    rw [← List.append_assoc (MapOp.allGiven E.eq ops s)]
    exact List.perm_append_comm

/-- A table of four buckets, which is no prime, with three entries, two of them in one chain. -/
def handedHashMem : HMem Nat Nat where
  n :=
    { node := fun a =>
        if a = 64 then some (some ⟨1, 10, 0⟩)
        else if a = 128 then some (some ⟨5, 50, 64⟩)
        else if a = 192 then some (some ⟨3, 30, 0⟩) else none
      link := fun _ => none
      reg := fun a => if a = 64 ∨ a = 128 ∨ a = 192 then some ⟨24, 8, true⟩ else none
      top := 216
      top_ok := by
        intro a r h
        split_ifs at h
        cases h; simp only; omega
      dropped := [] }
  b := exampleHashMem (V := Nat).b.setBlock 3
    (some ⟨5, .heap, fun i => if i = 1 then some 128 else if i = 3 then some 192 else
      if i = 4 then some (2 ^ 64 - 1) else some 0⟩)

theorem handedHashMem_table :
    HandedTable (exampleHash (· % 100)) handedHashMem ⟨.loc 3 0, 4, 3, 4, ()⟩ [3]
      [[], [(128, 5, 50), (64, 1, 10)], [], [(192, 3, 30)]] where
  nodes :=
    { wf :=
        { disj := by
            intro a b r r' h1 h2 hne
            unfold handedHashMem at h1 h2
            dsimp only at h1 h2
            split_ifs at h1 h2
            cases h1; cases h2; simp only; omega
          cover := by
            intro q hq
            unfold handedHashMem at hq ⊢
            dsimp only at hq ⊢
            have : q = 64 ∨ q = 128 ∨ q = 192 := by
              split_ifs at hq <;> simp_all
            exact ⟨q, ⟨24, 8, true⟩, by simp [this], by omega, by simp only; omega⟩
          null := by
            intro a r h
            unfold handedHashMem at h
            dsimp only at h
            split_ifs at h
            omega }
      distinct := by decide
      reg := by
        intro p hp
        simp at hp
        rcases hp with rfl | rfl | rfl <;> rfl
      node := by
        intro p hp
        simp at hp
        rcases hp with rfl | rfl | rfl <;> simp [handedHashMem]
      solid := by
        intro p hp q h1 h2
        simp at hp
        have : (exampleHash (· % 100)).size = 24 := rfl
        unfold handedHashMem
        dsimp only
        rw [if_neg (by omega), if_neg (by omega), if_neg (by omega)]
      aligned := by
        intro p hp _
        simp at hp
        have : (exampleHash (· % 100)).align = 8 := rfl
        rw [this]
        rcases hp with rfl | rfl | rfl <;> decide }
  array := .inr ⟨3, rfl, by decide, rfl, by decide, _, rfl, rfl, rfl, by
    intro i c hc
    match i, hc with
    | 0, hc => cases hc; exact ⟨0, rfl, rfl⟩
    | 1, hc => cases hc; exact ⟨128, rfl, rfl, by decide, 64, rfl, rfl, by decide, 0, rfl, rfl⟩
    | 2, hc => cases hc; exact ⟨0, rfl, rfl⟩
    | 3, hc => cases hc; exact ⟨192, rfl, rfl, by decide, 0, rfl, rfl⟩⟩
  static := ⟨_, rfl, rfl, rfl, rfl⟩
  buckets := rfl
  homes i c hc n hn := by
    match i, hc with
    | 0, hc => cases hc; cases hn
    | 1, hc => cases hc; simp at hn; rcases hn with rfl | rfl <;> rfl
    | 2, hc => cases hc; cases hn
    | 3, hc => cases hc; simp at hn; subst hn; rfl
  distinct := by decide
  count := rfl

example : (do
    let (os, t, m) ← HTable.run (exampleHash (· % 100))
      [.get 101, .insert 7 70, .insert 8 80, .remove 5, .len, .get 3] ⟨.loc 3 0, 4, 3, 4, ()⟩
      handedHashMem
    let (_, m) ← t.drop (exampleHash (· % 100)) m
    .ok (os, t.bucketCount, [64, 128, 192].map fun a => (m.n.reg a).isSome)) =
  (.ok ([.val (some 10), .val none, .val none, .val (some 50), .nat 4, .val (some 30)], 11,
    [false, false, false]) : Exec (List (MapOut Nat Nat) × Nat × List Bool)) := by
  decide +kernel

end Verif
