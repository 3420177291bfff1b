import Verif.Deque.Sweep
import Verif.LinkedList.Sweep
import Verif.HashTable.Sweep
import Verif.HashTable.PartSweep
import Verif.Props.Deque
import Verif.Props.LinkedList
import Verif.Props.HashTable

/-!
# C127: assigning to elements while iterating
-/

set_option autoImplicit false

namespace Verif
open Spec

/-- C127 for deques.  A history of calls in which, at any point, the program iterates over the deque
by `iter_mut`, from both ends in any order and as far as it likes, and assigns to every element it is
given, runs without fault, yields what it yields on a mathematical sequence, and drops exactly the
values overwritten, in this order; dropping the deque at the end drops what the sequence then
contains. -/
theorem C127_deque_iter_mut {α : Type} (E : DEnv α) (hS : 0 < E.S) (is : List (DeqItem α))
    (m0 : DMem α) :
    ∃ d0 m1 d m m', Deque.newIn E m0 = .ok (d0, m1) ∧
      Deque.runI E is d0 m1 = .ok ((DeqItem.run is []).1, d, m) ∧
      m.t.dropped = m0.t.dropped ++ (if E.nd then DeqItem.allOverwritten is [] else []) ∧
      d.len E = .ok (DeqItem.run is []).2.length ∧
      d.drop E m = .ok m' ∧
      m'.t.dropped = m.t.dropped ++ (if E.nd then (DeqItem.run is []).2 else []) := by
  obtain ⟨d0, m1, h1, h2, h3⟩ := DInv.newIn E hS m0
  obtain ⟨d, m, e1, ⟨pb, lo, bo, bl, e2⟩, e3⟩ := DInv.runI is h2
  obtain ⟨m', B, f1, _, _, f2⟩ := e2.drop
  exact ⟨d0, m1, d, m, m', h1, e1, by rw [e3, h3], e2.length, f1, f2⟩

/-- Two loops, the second from both ends, over elements in several subarrays. -/
example : (do
    let (d, m) ← Deque.newIn exampleEnv ⟨Mem.empty, Mem.empty⟩
    let (os, d, m) ← Deque.runI exampleEnv
      [.call (.pushBack 1), .call (.pushBack 2), .call (.pushFront 3), .call (.pushFront 4),
        .sweep [(.next, 10), (.next, 11), (.next, 12), (.next, 13), (.next, 14)], .call .popBack,
        .sweep [(.nextBack, 20), (.next, 21)], .sweep [(.next, 0), (.next, 0), (.next, 0)]] d m
    let m' ← d.drop exampleEnv m
    .ok (os.map (fun | .saw os => os | _ => []), m'.t.dropped)) =
  (.ok ([[], [], [], [], [some 4, some 3, some 1, some 2, none], [], [some 12, some 10],
      [some 21, some 11, some 20]], [4, 3, 1, 2, 12, 10, 21, 11, 20, 0, 0, 0]) :
    Exec (List (List (Option Nat)) × List Nat)) := rfl

/-- C127 for lists: as `C127_deque_iter_mut`, iterating from the front.  Nodes that are not the list's
own stay untouched, and when the list has been dropped the memory in use is what it was. -/
theorem C127_list_iter_mut {α : Type} (P : Placer (LNode α) α) {size : Nat} (hsz : 0 < size)
    (align : Nat) (nd : Bool) (is : List (ListItem α)) (m0 : LMem α) (hwf : m0.WF) (s : Nat)
    (hs : m0.node s ≠ none) :
    ∃ l0 m1 l m m', LList.newIn () s m0 = .ok (l0, m1) ∧
      LList.runI (listEnv P size align nd false) is l0 m1 = .ok ((ListItem.run is []).1, l, m) ∧
      m.dropped = m0.dropped ++ (if nd then ListItem.allDiscarded is [] else []) ∧
      (∀ z, z ≠ s → m0.node z ≠ none → m.node z = m0.node z) ∧
      l.size = (ListItem.run is []).2.length ∧
      l.drop (listEnv P size align nd false) m = .ok m' ∧ m'.reg = m0.reg ∧
      m'.dropped = m.dropped ++ (if nd then (ListItem.run is []).2 else []) := by
  have L := listEnv_law P align nd hsz m0
  obtain ⟨l0, m1, e1, e2, e3, e4, e5⟩ := LRep.newIn hs L (DefInv.init hwf size align)
  obtain ⟨l, m, ps, f1, f2, f3, f4, f5⟩ := LRep.runI L is e4
  obtain ⟨l', m', g1, g2, g3, g4, g5⟩ := f3.clear L
  have hd : DefInv m0 size align () m' [] := g4.inv
  rw [e2] at f4
  refine ⟨l0, m1, l, m, m', e1, f1, by rw [f5, e3]; rfl, ?_, f3.size, by simp [LList.drop, g1],
    hd.done, by rw [g3]; rfl⟩
  intro z hz hn
  exact ((e5.trans f4) z hn (by simpa using hz)).2

example : (do
    let E := listEnv Placer.bump 24 8 true false
    let (l, m) ← LList.newIn () 64 exampleListMem
    let (os, l, m) ← LList.runI E
      [.call (.extend [1, 2, 3]), .sweep [10, 11], .call .popFront, .sweep [20, 21, 22], .sweep [0, 0]] l m
    let m' ← l.drop E m
    .ok (os.map (fun | .saw os => os | _ => []), m'.dropped)) =
  (.ok ([[], [some 1, some 2], [], [some 11, some 3, none], [some 20, some 21]],
    [1, 2, 11, 3, 20, 21, 0, 0]) : Exec (List (List (Option Nat)) × List Nat)) := rfl

section
variable {K V : Type} {E : HEnv K V Unit} {m0 : HMem K V}

/-- C127 for hash maps.  A history of calls in which, at any point, a loop over `iter_mut` replaces
every value runs without fault and returns what it returns on a finite map. -/
theorem C127_hash_iter_mut (S : HSetting E m0) (is : List (MapItem K V))
    (hpk : MapItem.peak E.eq is [] ≤ 2557710464) :
    ∃ t m, HTable.runI E is (HTable.newIn E ()) m0 = .ok ((MapItem.run E.eq is []).1, t, m) ∧
      t.count = (MapItem.run E.eq is []).2.length ∧
      ∃ (it : HIter) (es : List (K × V)), t.iter m = .ok it ∧ es.Perm (MapItem.run E.eq is []).2 ∧
        ∀ n, ∃ it', it.run m n = .ok ((List.range n).map fun i => es[i]?, it') := by
  obtain ⟨t, m, _, bl, cs, e1, e2, e3⟩ :=
    HRep.runI S.law S.equiv S.hash is S.init (.refl _) hpk
  obtain ⟨it, c, ds, f1, f2, f3⟩ := e2.core.iter
  refine ⟨t, m, e1, by rw [e2.count, ← ents_length, e3.length_eq]; rfl, it, ents cs, f1, e3, fun n => ?_⟩
  obtain ⟨it', c', ds', g1, _, _⟩ := f2.run n
  rw [f3] at g1
  exact ⟨it', g1⟩

end

/-- Two loops between calls, with equal keys. -/
example : (do
    let (os, t, m) ← HTable.runI (exampleHash (· % 100))
      [.call (.insert 1 10), .call (.insert 2 20), .sweep (fun k v => k + v), .call (.insert 101 5),
        .call (.get 1), .sweep (fun _ v => 2 * v), .call (.remove 2), .call (.get 1)]
      (HTable.newIn (exampleHash (· % 100)) ()) exampleHashMem
    let it ← t.iter m
    let (b, _) ← it.run m 3
    .ok (os, b)) = (.ok ([some (.val none), some (.val none), none, some (.val (some 11)),
      some (.val (some 5)), none, some (.val (some 44)), some (.val (some 10))],
      [some (1, 10), none, none]) : Exec (List (Option (MapOut Nat Nat)) × List (Option (Nat × Nat)))) := by
  decide +kernel

section
variable {K V : Type} {E : HEnv K V Unit} {m0 : HMem K V}

/-- C127 for hash maps, with loops that may stop early.  A history of calls in which, at any point,
the program iterates over the map by `iter_mut`, as far as it likes, and assigns to the values it is
given, runs without fault; it yields what it yields on a finite map iterated over in some order; it
drops exactly what the calls drop and the values overwritten.  Dropping the map frees every node and
drops what the finite map then contains. -/
theorem C127_hash_iter_mut_part (S : HSetting E m0) (is : List (MapWrite K V))
    (hn : is.length ≤ 2557710464) :
    ∃ os s d t m a m', MapWritten E.eq is [] os s d ∧
      HTable.runW E is (HTable.newIn E ()) m0 = .ok (os, t, m) ∧
      m.n.dropped.Perm (m0.n.dropped ++ d.filter fun x =>
        match x with | .inl _ => E.ndK | .inr _ => E.ndV) ∧
      t.count = s.length ∧ t.drop E m = .ok (a, m') ∧ m'.n.reg = m0.n.reg ∧ m'.n.node = m0.n.node ∧
      m'.n.dropped.Perm (m.n.dropped ++ (contents s).filter fun x =>
        match x with | .inl _ => E.ndK | .inr _ => E.ndV) := by
  have hneeds : (fun x : K ⊕ V => match x with | .inl _ => E.ndK | .inr _ => E.ndV) = E.needs := by
    funext x; cases x <;> rfl
  obtain ⟨os, s, d, t, m, p, bl, cs, e1, e2, e3, e4, e5⟩ :=
    HRep.runW S.law S.equiv S.hash is S.init (.refl _) (by
      show 0 + is.length ≤ 2557710464
      omega)
  obtain ⟨a, m', f1, f2, f3⟩ := e3.freeBuckets S.law
  have hinv := f2.inv
  have hnil : addrs (List.replicate t.bucketCount ([] : List (Nat × K × V))) = [] := by
    simp [addrs]
  rw [hnil] at hinv
  refine ⟨os, s, d, t, m, a, m', e1, e2, by rw [hneeds]; exact e5,
    by rw [e3.count, ← ents_length, e4.length_eq], by simp [HTable.drop, f1], hinv.done, ?_,
    by rw [hneeds]; exact f3.trans (((contents_perm e4).filter _).append_left _)⟩
  funext q
  by_cases hq : m0.n.node q = none
  · rw [hq]; exact (hinv.node q (by simp)).2 hq
  · exact (f2.keep q hq).2

end

/-- Two loops between calls, the first stopping early, the second going on after the end. -/
example : (do
    let (os, t, m) ← HTable.runW (exampleHash (· % 100))
      [.call (.insert 1 10), .call (.insert 2 20), .call (.insert 3 30), .sweep [11, 21],
        .call (.get 1), .call (.remove 3), .sweep [5, 6, 7], .call (.get 2)]
      (HTable.newIn (exampleHash (· % 100)) ()) exampleHashMem
    let (_, m') ← t.drop (exampleHash (· % 100)) m
    .ok (os, m'.n.dropped)) =
  (.ok ([.out (.val none), .out (.val none), .out (.val none), .saw [some (1, 10), some (2, 20)],
      .out (.val (some 11)), .out (.val (some 30)), .saw [some (1, 11), some (2, 21), none],
      .out (.val (some 6))],
    [.inr 10, .inr 20, .inl 3, .inr 11, .inr 21, .inl 1, .inr 5, .inl 2, .inr 6]) :
    Exec (List (MapSeen Nat Nat) × List (Nat ⊕ Nat))) := by
  decide +kernel

end Verif
