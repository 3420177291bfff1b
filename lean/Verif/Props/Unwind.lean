import Verif.Unwind.Vector
import Verif.Unwind.List
import Verif.Unwind.Hash
import Verif.Props.LinkedList
import Verif.Props.HashTable
import Verif.Props.Vector

/-! What panicking destructors, clones and hash functions leave behind. -/

set_option autoImplicit false

namespace Verif
open Spec

variable {α : Type}

/-! ## C89 -/

/-- C89 fails: if the destructor of one element panics during `clear`, the vector still refers to
all its elements, and every one of them is dropped a second time when the vector is dropped. -/
theorem C89_clear_drops_twice (R : RawAlloc α) (m0 : Mem α) (ops : List (SeqOp α))
    (hops : ∀ o ∈ ops, o.isSlice = false) {outs : List (Out α)} {v : Vec} {m : Mem α}
    (hrun : Vec.run (defaultAllocator R) true ops Vec.new m0 = .ok (outs, v, m))
    (bad : α → Bool) {xs : List α} (hxs : SeqOp.run ops [] = .ok (outs, xs))
    (h1 : xs.countP bad = 1) :
    ∃ m1 m2, v.clearP (defaultAllocator R) bad m = .ok (.unwinds (v, m1)) ∧
      v.asSlice m1 = .ok xs ∧ m1.dropped = m.dropped ++ xs ∧
      v.clearP (defaultAllocator R) bad m1 = .ok (.unwinds (v, m2)) ∧
      m2.dropped = m.dropped ++ xs ++ xs := by
  obtain ⟨ys, ds, cap, e1, hi, _, _⟩ := reachable_inv R true m0 ops (fun _ => hops) hrun
  rw [hxs] at e1
  cases e1
  have hi' : VInv (fun _ => False) defaultFits m0.live { m with dropped := m.dropped ++ xs } v xs cap :=
    hi.log rfl
  exact ⟨_, _, hi.clearP_unwinds bad h1, hi'.slice, rfl, hi'.clearP_unwinds bad h1, rfl⟩

/-- C89, the true part.  Dropping a vector drops each element once, also if the destructor of one of
them panics (its buffer then stays allocated); with two such elements the process is aborted; with
none `clear` empties the vector and frees its memory.  Missing: `clear` followed by the drop. -/
theorem C89_vector_drop_partial (R : RawAlloc α) (m0 : Mem α) (ops : List (SeqOp α))
    (hops : ∀ o ∈ ops, o.isSlice = false) {outs : List (Out α)} {v : Vec} {m : Mem α}
    (hrun : Vec.run (defaultAllocator R) true ops Vec.new m0 = .ok (outs, v, m))
    (bad : α → Bool) {xs : List α} (hxs : SeqOp.run ops [] = .ok (outs, xs)) :
    (1 < xs.countP bad → v.clearP (defaultAllocator R) bad m = .ok .aborts) ∧
    (xs.countP bad = 1 → ∃ m', v.clearP (defaultAllocator R) bad m = .ok (.unwinds (v, m')) ∧
      m'.dropped = m.dropped ++ xs ∧ m'.live = m.live) ∧
    (xs.countP bad = 0 → ∃ m', v.clearP (defaultAllocator R) bad m = .ok (.returns (Vec.new, m')) ∧
      m'.dropped = m.dropped ++ xs ∧ m'.live = m0.live) := by
  obtain ⟨ys, ds, cap, e1, hi, _, _⟩ := reachable_inv R true m0 ops (fun _ => hops) hrun
  rw [hxs] at e1
  cases e1
  refine ⟨hi.clearP_aborts bad, fun h => ⟨_, hi.clearP_unwinds bad h, rfl, rfl⟩, fun h => ?_⟩
  obtain ⟨m', he, _, hw, _, _, hef⟩ := hi.clear (defaultAllocator_lawful R) true
  refine ⟨m', hi.clearP_returns bad ?_ he, hef.dropped, funext fun p => hw p not_false⟩
  intro x hx
  have := List.countP_eq_zero.1 h x hx
  simpa using this

/-- Non-vacuity of C89: three elements, the destructor of 2 panics. -/
example : (do
    let (_, v, m) ← Vec.run (defaultAllocator RawAlloc.bump) true [.push 1, .push 2, .push 3]
      Vec.new Mem.empty
    match ← v.clearP (defaultAllocator RawAlloc.bump) (· == 2) m with
    | .unwinds (v, m) => do
      match ← v.clearP (defaultAllocator RawAlloc.bump) (· == 2) m with
      | .unwinds (_, m) => .ok (some m.dropped)
      | _ => .ok none
    | _ => .ok none) = (.ok (some [1, 2, 3, 1, 2, 3]) : Exec (Option (List Nat))) ∧
    (SeqOp.run [.push 1, .push 2, .push 3] []).map (fun r => r.2.countP (· == 2)) = .ok 1 := by
  decide +kernel

/-! ## C90 -/

/-- C90 fails: if `append` had to grow and the clone of an element panics, the vector is left with
its new length; its elements from there on are uninitialised and cannot be read. -/
theorem C90_append_exposes_uninitialised (R : RawAlloc α) (m0 : Mem α) (ops : List (SeqOp α))
    {outs : List (Out α)} {v : Vec} {m : Mem α}
    (hrun : Vec.run (defaultAllocator R) false ops Vec.new m0 = .ok (outs, v, m))
    {xs : List α} (hxs : SeqOp.run ops [] = .ok (outs, xs)) {cap : Nat} (hcap : v.capacity = .ok cap)
    (boom : α → Bool) (pre : List α) (x : α) (post : List α)
    (hpre : ∀ y ∈ pre, boom y = false) (hx : boom x = true)
    (hgrow : cap < xs.length + (pre ++ x :: post).length) :
    ∃ v' m', v.appendP (defaultAllocator R) boom (pre ++ x :: post) m = .ok (.unwinds (v', m')) ∧
      v'.len = .ok (xs.length + (pre ++ x :: post).length) ∧ v'.asSlice m' = .error .ub := by
  obtain ⟨ys, ds, cap', e1, hi, _, _⟩ := reachable_inv R false m0 ops (by simp) hrun
  rw [hxs] at e1
  cases e1
  rw [hi.capacity] at hcap
  cases hcap
  obtain ⟨v', m', f1, f2, _, _, f5⟩ := hi.appendP_boom (defaultAllocator_lawful R)
    (fun blk n h j => by rw [h]) hpre hx
  exact ⟨v', m', f1, f2, f5 hgrow⟩

/-- C90 fails for `assign` of a slice for which there is not enough room. -/
theorem C90_assign_exposes_uninitialised (R : RawAlloc α) (m0 : Mem α) (ops : List (SeqOp α))
    {outs : List (Out α)} {v : Vec} {m : Mem α}
    (hrun : Vec.run (defaultAllocator R) false ops Vec.new m0 = .ok (outs, v, m))
    {cap : Nat} (hcap : v.capacity = .ok cap)
    (boom : α → Bool) (pre : List α) (x : α) (post : List α)
    (hpre : ∀ y ∈ pre, boom y = false) (hx : boom x = true)
    (hgrow : cap < (pre ++ x :: post).length) :
    ∃ v' m', v.assignP (defaultAllocator R) boom (pre ++ x :: post) m = .ok (.unwinds (v', m')) ∧
      v'.len = .ok (pre ++ x :: post).length ∧ v'.asSlice m' = .error .ub := by
  obtain ⟨ys, ds, cap', e1, hi, _, _⟩ := reachable_inv R false m0 ops (by simp) hrun
  rw [hi.capacity] at hcap
  cases hcap
  obtain ⟨v', m', f1, f2, _, _, _, f5⟩ := hi.assignP_boom (defaultAllocator_lawful R)
    (fun blk n h j => by rw [h]) hpre hx
  exact ⟨v', m', f1, f2, f5 hgrow⟩

/-- C90, the true part.  After such a panic no destructor was run, and the old elements and the
clones already made are in place: behind one another after `append`; after `assign` the clones in
place of the first old elements, as far as the new length goes.  So `assign` of a slice no longer
than the vector leaves a vector of valid elements.  Missing: the other elements. -/
theorem C90_panicking_clone_partial (R : RawAlloc α) (m0 : Mem α) (ops : List (SeqOp α))
    {outs : List (Out α)} {v : Vec} {m : Mem α}
    (hrun : Vec.run (defaultAllocator R) false ops Vec.new m0 = .ok (outs, v, m))
    {xs : List α} (hxs : SeqOp.run ops [] = .ok (outs, xs))
    (boom : α → Bool) (pre : List α) (x : α) (post : List α)
    (hpre : ∀ y ∈ pre, boom y = false) (hx : boom x = true) :
    (∃ v' m', v.appendP (defaultAllocator R) boom (pre ++ x :: post) m = .ok (.unwinds (v', m')) ∧
      v'.len = .ok (xs.length + (pre ++ x :: post).length) ∧ m'.dropped = m.dropped ∧
      m'.readRange v'.beginPtr (xs.length + pre.length) = .ok (xs ++ pre)) ∧
    ∃ v' m', v.assignP (defaultAllocator R) boom (pre ++ x :: post) m = .ok (.unwinds (v', m')) ∧
      v'.len = .ok (pre ++ x :: post).length ∧ m'.dropped = m.dropped ∧
      (∃ zs, zs = (pre ++ xs.drop pre.length).take (pre ++ x :: post).length ∧
        m'.readRange v'.beginPtr zs.length = .ok zs) ∧
      ((pre ++ x :: post).length ≤ xs.length → v'.asSlice m' =
        .ok (pre ++ (xs.take (pre ++ x :: post).length).drop pre.length)) := by
  obtain ⟨ys, ds, cap', e1, hi, _, _⟩ := reachable_inv R false m0 ops (by simp) hrun
  rw [hxs] at e1
  cases e1
  obtain ⟨v1, m1, f1, f2, f3, f4, _⟩ := hi.appendP_boom (defaultAllocator_lawful R)
    (fun blk n h j => by rw [h]) (post := post) hpre hx
  obtain ⟨v2, m2, g1, g2, g3, g4, g5, _⟩ := hi.assignP_boom (defaultAllocator_lawful R)
    (fun blk n h j => by rw [h]) (post := post) hpre hx
  exact ⟨⟨v1, m1, f1, f2, f3, f4⟩, v2, m2, g1, g2, g3, ⟨_, rfl, g4⟩, g5⟩

/-- Non-vacuity of C90: appending `[3, 4, 5]` where 4 cannot be cloned, to a vector with two
elements and room for two; assigning `[7, 4]`. -/
example : (do
    let (_, v, m) ← Vec.run (defaultAllocator RawAlloc.bump) false [.push 1, .push 2]
      Vec.new Mem.empty
    match ← v.appendP (defaultAllocator RawAlloc.bump) (· == 4) [3, 4, 5] m,
      ← v.assignP (defaultAllocator RawAlloc.bump) (· == 4) [7, 4] m with
    | .unwinds (v, m), .unwinds (v', m') => .ok (some (← v.capacity, ← v.len, (v.asSlice m).toOption,
        (m.readRange v.beginPtr 3).toOption, (v'.asSlice m').toOption))
    | _, _ => .ok none) =
      (.ok (some (5, 5, none, some [1, 2, 3], some [7, 2])) :
        Exec (Option (Nat × Nat × Option (List Nat) × Option (List Nat) × Option (List Nat)))) := by
  rfl

/-! ## C91 -/

/-- C91, refuted.  If the destructor of an element other than the first panics, `List::clear` (and
so `drop`) has freed the nodes before it but the list still points at them and still counts them:
reading the front element and clearing or dropping the list again use freed memory. -/
theorem C91_list_clear_dangles (P : Placer (LNode α) α) {size align : Nat} (hsz : 0 < size)
    {m0 : LMem α} (hwf : m0.WF) {s : Nat} (hs : m0.node s ≠ none) (ops : List (ListOp α))
    {outs : List (Out α)} {l : LList Unit} {m : LMem α}
    (hrun : LList.history (listEnv P size align true false) ops () s m0 = .ok (outs, l, m))
    (bad : α → Bool) (pre : List α) (x : α) (post : List α)
    (hxs : (ListOp.run ops []).2 = pre ++ x :: post) (hne : pre ≠ [])
    (hpre : ∀ y ∈ pre, bad y = false) (hx : bad x = true) :
    ∃ l' m', l.clearP (listEnv P size align true false) bad m = .ok (.unwinds (l', m')) ∧
      l'.size = (pre ++ x :: post).length ∧ l'.front m' = .error .ub ∧
      l'.clearP (listEnv P size align true false) bad m' = .error .ub := by
  obtain ⟨ps, _, hr, _, _⟩ := list_history_ok hsz hwf hs hrun
  rw [hxs] at hr
  obtain ⟨l', m', e1, _, e3, e4, e5⟩ := hr.clearP_dangling (listEnv_law P align true hsz m0) hne
    hpre hx
  exact ⟨l', m', e1, by rw [e3, hr.size], e4, e5⟩

/-- C91, refuted for the first element: its destructor runs again when the list is dropped. -/
theorem C91_list_clear_drops_twice (P : Placer (LNode α) α) {size align : Nat} (hsz : 0 < size)
    {m0 : LMem α} (hwf : m0.WF) {s : Nat} (hs : m0.node s ≠ none) (ops : List (ListOp α))
    {outs : List (Out α)} {l : LList Unit} {m : LMem α}
    (hrun : LList.history (listEnv P size align true false) ops () s m0 = .ok (outs, l, m))
    (bad : α → Bool) (x : α) (post : List α) (hxs : (ListOp.run ops []).2 = x :: post)
    (hx : bad x = true) :
    ∃ l' m', l.clearP (listEnv P size align true false) bad m = .ok (.unwinds (l', m')) ∧
      ∃ l'' m'', l'.clearP (listEnv P size align true false) bad m' = .ok (.unwinds (l'', m'')) ∧
        m''.dropped = m.dropped ++ [x, x] := by
  obtain ⟨ps, _, hr, _, _⟩ := list_history_ok hsz hwf hs hrun
  rw [hxs] at hr
  obtain ⟨m', e1, e2, e3⟩ := hr.clearP_first (listEnv_law P align true hsz m0) hx
  obtain ⟨m'', f1, f2, _⟩ := e3.clearP_first (listEnv_law P align true hsz m0) hx
  exact ⟨l, m', e1, l, m'', f1, by rw [f2, e2, List.append_assoc]; rfl⟩

/-- C91, the true part.  The call itself runs the destructors of the elements up to the panicking
one, each once and in order, and if none panics it empties the list.  Missing: the state after a
panic. -/
theorem C91_list_clear_partial (P : Placer (LNode α) α) {size align : Nat} (hsz : 0 < size)
    {m0 : LMem α} (hwf : m0.WF) {s : Nat} (hs : m0.node s ≠ none) (ops : List (ListOp α))
    {outs : List (Out α)} {l : LList Unit} {m : LMem α}
    (hrun : LList.history (listEnv P size align true false) ops () s m0 = .ok (outs, l, m))
    (bad : α → Bool) :
    (∀ (pre : List α) (x : α) (post : List α), (ListOp.run ops []).2 = pre ++ x :: post →
      (∀ y ∈ pre, bad y = false) → bad x = true →
      ∃ s', l.clearP (listEnv P size align true false) bad m = .ok (.unwinds s') ∧
        s'.2.dropped = m.dropped ++ (pre ++ [x])) ∧
    ((∀ y ∈ (ListOp.run ops []).2, bad y = false) →
      ∃ l' m', l.clearP (listEnv P size align true false) bad m = .ok (.returns (l', m')) ∧
        l'.size = 0 ∧ l'.addrs m' = .ok [] ∧ m'.dropped = m.dropped ++ (ListOp.run ops []).2) := by
  obtain ⟨ps, _, hr, _, _⟩ := list_history_ok hsz hwf hs hrun
  have L := listEnv_law P align true hsz m0
  refine ⟨fun pre x post hxs hpre hx => ?_, fun hb => ?_⟩
  · rw [hxs] at hr
    obtain ⟨a', m', qs, q, rs, _, _, e1, _, e3, _, _⟩ := hr.clearP_boom L hpre hx
    exact ⟨_, e1, e3⟩
  · obtain ⟨l', m', e1, _, e3, e4, _⟩ := hr.clear L
    refine ⟨l', m', ?_, e4.size, e4.addrs, ?_⟩
    · rw [hr.clearP_returns L rfl hb, e1]; rfl
    · rw [e3]; rfl

/-- Non-vacuity of C91: the list 1, 2, 3 where the destructor of 2, 1 or none panics. -/
example : (do
    let E := listEnv Placer.bump 24 8 true false
    let (_, l, m) ← LList.history E [.pushBack 1, .pushBack 2, .pushBack 3] () 64 exampleListMem
    match ← l.clearP E (· == 2) m, ← l.clearP E (· == 1) m, ← l.clearP E (· == 9) m with
    | .unwinds (l1, m1), .unwinds (l2, m2), .returns (l3, m3) =>
      .ok (some (m1.dropped, l1.size, (l1.front m1).toOption, m2.dropped, (l2.front m2).toOption,
        m3.dropped, l3.size))
    | _, _, _ => .ok none) =
      (.ok (some ([1, 2], 3, none, [1], some (some 1), [1, 2, 3], 0)) :
        Exec (Option (List Nat × Nat × Option (Option Nat) × List Nat × Option (Option Nat) ×
          List Nat × Nat))) := by
  rfl

/-! ## C92 -/

section
variable {K V : Type} {E : HEnv K V Unit} {m0 : HMem K V}

/-- C92, refuted.  Whenever a stored key or value has a destructor that panics, the panic leaves
`HashMap::clear` (and so `drop`) with a map that still counts all its entries, and clearing or
dropping it then uses freed memory, or drops a key and a value that were dropped before. -/
theorem C92_hash_clear_corrupts (S : HSetting E m0) (ops : List (MapOp K V))
    (hpk : MapOp.peak E.eq ops [] ≤ 2557710464) {outs : List (MapOut K V)} {t : HTable Unit}
    {m : HMem K V} (h : HTable.history E ops m0 = .ok (outs, t, m)) (bad : K → V → Bool)
    (hbad : ∃ e ∈ (MapOp.run E.eq ops []).2, bad e.1 e.2 = true) :
    ∃ t' m', t.clearP E bad m = .ok (.unwinds (t', m')) ∧
      t'.count = (MapOp.run E.eq ops []).2.length ∧
      (t'.clearP E bad m' = .error .ub ∨
        ∃ t'' m'' k v, t'.clearP E bad m' = .ok (.unwinds (t'', m'')) ∧
          m'.n.dropped = m.n.dropped ++ [.inl k, .inr v].filter E.needs ∧
          m''.n.dropped = m'.n.dropped ++ [.inl k, .inr v].filter E.needs) := by
  obtain ⟨bl, cs, A⟩ := S.after hpk h
  obtain ⟨pre, x, post, ho, hpre, hx⟩ := first_split (f := fun n => bad n.2.1 n.2.2)
      (l := (cs.map List.reverse).flatten) (by
    obtain ⟨e, he, hb⟩ := hbad
    rw [← A.perm.mem_iff, ents, List.mem_map] at he
    obtain ⟨n, hn, rfl⟩ := he
    obtain ⟨c, hc, hn⟩ := List.mem_flatten.1 hn
    exact ⟨n, List.mem_flatten.2 ⟨c.reverse, List.mem_map_of_mem hc, by simpa using hn⟩, hb⟩)
  cases pre with
  | nil =>
    obtain ⟨e1, e2⟩ := A.rep.clearP_first ho hx
    refine ⟨t, _, e1, A.count, .inr ⟨t, _, x.2.1, x.2.2, e2, (drops_ok m _ _).2.2.2.2,
      (drops_ok (m.dropNode E x) _ _).2.2.2.2⟩⟩
  | cons y pre =>
    obtain ⟨a', m', e1, _, _, _, _, e6⟩ := A.rep.clearP_boom S.law ho hpre hx
    exact ⟨_, m', e1, A.count, .inl (e6 (by simp))⟩

/-- C92, the true part.  The call itself drops no key and no value twice: those it drops are some
of those stored; if no destructor panics, `clear` does what it should (C54, C58).  Missing: the
state after a panic. -/
theorem C92_hash_clear_partial (S : HSetting E m0) (ops : List (MapOp K V))
    (hpk : MapOp.peak E.eq ops [] ≤ 2557710464) {outs : List (MapOut K V)} {t : HTable Unit}
    {m : HMem K V} (h : HTable.history E ops m0 = .ok (outs, t, m)) (bad : K → V → Bool) :
    ((∀ e ∈ (MapOp.run E.eq ops []).2, bad e.1 e.2 = false) →
      t.clearP E bad m = (t.clear E m).map .returns) ∧
    ∀ t' m', t.clearP E bad m = .ok (.unwinds (t', m')) →
      ∃ gone left : List (K × V), (gone ++ left).Perm (MapOp.run E.eq ops []).2 ∧
        m'.n.dropped = m.n.dropped ++ (gone.flatMap fun e => [.inl e.1, .inr e.2]).filter E.needs := by
  obtain ⟨bl, cs, A⟩ := S.after hpk h
  have hgood : (∀ e ∈ (MapOp.run E.eq ops []).2, bad e.1 e.2 = false) →
      t.clearP E bad m = (t.clear E m).map .returns := by
    intro hb
    apply A.rep.clearP_returns S.law
    intro n hn
    exact hb n.2 (A.perm.mem_iff.1 (List.mem_map_of_mem hn))
  refine ⟨hgood, fun t' m' he => ?_⟩
  by_cases hbad : ∃ n : Nat × K × V, n ∈ (cs.map List.reverse).flatten ∧
      bad n.2.1 n.2.2 = true
  · obtain ⟨pre, x, post, ho, hpre, hx⟩ := first_split
      (f := fun n : Nat × K × V => bad n.2.1 n.2.2) hbad
    obtain ⟨a', m'', e1, e2, _⟩ := A.rep.clearP_boom S.law ho hpre hx
    rw [e1] at he
    cases he
    refine ⟨(pre ++ [x]).map Prod.snd, post.map Prod.snd, ?_, ?_⟩
    · rw [← List.map_append, List.append_assoc, List.singleton_append, ← ho]
      refine List.Perm.trans ?_ A.perm
      apply List.Perm.map
      clear ho hbad hgood e1 h A
      induction cs with
      | nil => exact .refl _
      | cons c cs ih =>
        rw [List.map_cons, List.flatten_cons, List.flatten_cons]
        exact (List.reverse_perm c).append ih
    · rw [e2, List.flatMap_map]; rfl
  · rw [hgood] at he
    · cases hc : t.clear E m with
      | error e => rw [hc] at he; cases he
      | ok r => rw [hc] at he; cases he
    · intro e hm
      rw [← A.perm.mem_iff, ents, List.mem_map] at hm
      obtain ⟨n, hn, rfl⟩ := hm
      obtain ⟨c, hc, hn⟩ := List.mem_flatten.1 hn
      cases hb : bad n.2.1 n.2.2 with
      | false => rfl
      | true =>
        exact absurd ⟨n, List.mem_flatten.2 ⟨c.reverse, List.mem_map_of_mem hc, by simpa using hn⟩,
          hb⟩ hbad

end

/-- Non-vacuity of C92: three entries; the destructor of key 2 resp. of key 1, which is dropped
first, panics. -/
example : HSetting (exampleHash (· % 100)) (exampleHashMem (V := Nat)) ∧ (do
    let E := exampleHash (· % 100)
    let (_, t, m) ← HTable.history E [.insert 1 10, .insert 2 20, .insert 3 30] exampleHashMem
    match ← t.clearP E (fun k _ => k == 2) m, ← t.clearP E (fun k _ => k == 1) m with
    | .unwinds (t1, m1), .unwinds (t2, m2) =>
      match ← t2.clearP E (fun k _ => k == 1) m2 with
      | .unwinds (_, m3) => .ok (some (m1.n.dropped.map (Sum.elim id id), t1.count,
          (t1.clearP E (fun k _ => k == 2) m1).toOption.isNone, m3.n.dropped.map (Sum.elim id id)))
      | _ => .ok none
    | _, _ => .ok none) =
      (.ok (some ([1, 10, 2, 20], 3, true, [1, 10, 1, 10])) :
        Exec (Option (List Nat × Nat × Bool × List Nat))) :=
  ⟨exampleHash_ok _ (by intro a b h; exact h), by decide +kernel⟩

end Verif
