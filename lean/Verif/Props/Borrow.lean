import Verif.Deque.Stale
import Verif.Props.Deque
import Verif.Props.LinkedList
import Verif.Props.HashTable

/-!
# References and iterators that are not tied to a borrow (C95, C96)

`Deque::iter(&self) -> Iter<'a, T>` and `iter_mut(&mut self) -> IterMut<'a, T>`
(src/deque/mod.rs:62-69), and the same of `Queue` (src/queue.rs:39-46), return iterators with the
lifetime parameter of the container's type instead of that of the borrow: the borrow ends at once,
and safe code may change or drop the deque while it keeps the iterator.  `List::iter_mut(&self)`
(src/list/mod.rs:128-130) takes a shared borrow, so safe code may hold several.  The mutable
iterator of a hash map can be cloned (src/internal/hash_table/iter.rs:283-286), which also gives
two.  The theorems say what happens then.
-/

set_option autoImplicit false

namespace Verif
open Spec

variable {α : Type}

/-! ## C95 -/

/-- C95, refuted: an iterator taken before the deque is dropped.  For every history that leaves
at least one element, the first use of the iterator afterwards, from either end, reads freed
memory. -/
theorem C95_iter_outlives_deque (E : DEnv α) (hS : 0 < E.S) (ops : List (DeqOp α)) (m0 : DMem α)
    {outs : List (Out α)} {d : Deque} {m : DMem α}
    (h : Deque.history E ops m0 = .ok (outs, d, m)) (hne : (DeqOp.run ops []).2 ≠ []) :
    ∃ it m', d.iter = .ok it ∧ d.drop E m = .ok m' ∧
      it.step .next m' = .error .ub ∧ it.step .nextBack m' = .error .ub := by
  obtain ⟨pb, lo, bo, bl, h⟩ := history_ok hS h
  exact h.stale_drop hne

/-- C95, refuted: an iterator taken before `pop_front`.  Its next use either reads freed memory or
yields the element that `pop_front` has already given away. -/
theorem C95_iter_sees_popped (E : DEnv α) (hS : 0 < E.S) (ops : List (DeqOp α)) (m0 : DMem α)
    {outs : List (Out α)} {d : Deque} {m : DMem α}
    (h : Deque.history E ops m0 = .ok (outs, d, m)) {y : α}
    (hy : (DeqOp.run ops []).2.head? = some y) :
    ∃ it d' m', d.iter = .ok it ∧ d.popFront E m = .ok (some y, d', m') ∧
      (it.step .next m' = .error .ub ∨ ∃ it', it.step .next m' = .ok (some y, it')) := by
  obtain ⟨pb, lo, bo, bl, h⟩ := history_ok hS h
  exact h.stale_pop hy

/-- C95, the part that is true: if the calls between taking and using an iterator add and remove
nothing, any use of the iterator yields the elements the deque has now.  Missing: all other
calls. -/
theorem C95_iter_in_place_partial (E : DEnv α) (hS : 0 < E.S) (ops : List (DeqOp α)) (m0 : DMem α)
    {outs : List (Out α)} {d : Deque} {m : DMem α}
    (h : Deque.history E ops m0 = .ok (outs, d, m)) (more : List (DeqOp α))
    (hin : ∀ op ∈ more, op.inPlace = true) (its : List IterOp) :
    ∃ it d' m' it', d.iter = .ok it ∧
      Deque.run E more d m = .ok ((DeqOp.run more (DeqOp.run ops []).2).1, d', m') ∧
      it.run its m' =
        .ok ((IterOp.run its (DeqOp.run more (DeqOp.run ops []).2).2).1, it') := by
  obtain ⟨pb, lo, bo, bl, h⟩ := history_ok hS h
  obtain ⟨m', h1, h2⟩ := h.inPlace_run more hin
  obtain ⟨i', j', _, _, h3, _⟩ := h2.iterRun its 0 _ (Nat.zero_le _) (Nat.le_refl _)
  simp only [Nat.add_zero, List.take_length, List.drop_zero] at h3
  have hit : d.iter = _ := h2.iter
  exact ⟨_, d, m', _, hit, h1, h3⟩

/-- Non-vacuity of C95: five elements in subarrays of four.  After one pop the iterator yields the
popped element; after four pops, or after the drop, it reads freed memory; after an assignment to
the front it yields the new value. -/
example :
    (do
      let (_, d, m) ← Deque.history ⟨4, true, RawAlloc.bump, RawAlloc.bump⟩
        [.pushBack 1, .pushBack 2, .pushBack 3, .pushBack 4, .pushBack 5] ⟨Mem.empty, Mem.empty⟩
      let it ← d.iter
      let (_, d1, m1) ← Deque.run ⟨4, true, RawAlloc.bump, RawAlloc.bump⟩ [.popFront] d m
      let (a, _) ← it.step .next m1
      let (_, _, m2) ← Deque.run ⟨4, true, RawAlloc.bump, RawAlloc.bump⟩
        [.popFront, .popFront, .popFront] d1 m1
      let m3 ← d.drop ⟨4, true, RawAlloc.bump, RawAlloc.bump⟩ m
      let (_, _, m4) ← Deque.run ⟨4, true, RawAlloc.bump, RawAlloc.bump⟩ [.setFront 9] d m
      let (b, _) ← it.step .next m4
      .ok (a, (it.step .next m2).toOption.isNone, (it.step .next m3).toOption.isNone, b)) =
    (.ok (some 1, true, true, some 9) : Exec _) := rfl

/-! ## C96 -/

/-- C96, refuted for deques: two mutable iterators that exist at the same time.  What is written
through the first reference of one is seen through the first reference of the other. -/
theorem C96_deque_iter_mut_aliases (E : DEnv α) (hS : 0 < E.S) (ops : List (DeqOp α))
    (m0 : DMem α) {outs : List (Out α)} {d : Deque} {m : DMem α}
    (h : Deque.history E ops m0 = .ok (outs, d, m)) (hne : (DeqOp.run ops []).2 ≠ []) (x : α) :
    ∃ it1 it2 p it1' m' it2', d.iter = .ok it1 ∧ d.iter = .ok it2 ∧
      it1.next m = .ok (some p, it1') ∧ assignOpt E m x (some p) = .ok (true, m') ∧
      it2.step .next m' = .ok (some x, it2') := by
  obtain ⟨pb, lo, bo, bl, h⟩ := history_ok hS h
  have hpos : 0 < (DeqOp.run ops []).2.length := List.length_pos_iff.2 hne
  obtain ⟨m', h1, h2, _⟩ := h.assign hpos x
  have hn := h.next (Nat.zero_le (DeqOp.run ops []).2.length) (Nat.le_refl _)
  rw [if_neg (by omega)] at hn
  have hn' := h2.next (Nat.zero_le ((DeqOp.run ops []).2.set 0 x).length) (Nat.le_refl _)
  rw [List.length_set, if_neg (by omega)] at hn'
  have hv : m'.t.read (cellPtr E.S bl (bo + 0)) = .ok x :=
    h2.vals 0 x (by rw [List.getElem?_set_self hpos])
  simp only [Nat.add_zero] at hn hn' h1 hv
  exact ⟨_, _, _, _, m', iterAt E.S pb lo bl (bo + 1) (bo + (DeqOp.run ops []).2.length), h.iter,
    h.iter, hn, h1, by simp only [DIter.step, hn', Exec.ok_bind, hv]⟩

section
variable (P : Placer (LNode α) α) {size : Nat} (align : Nat) (nd : Bool)

/-- C96, refuted for lists, where `iter_mut` takes a shared borrow. -/
theorem C96_list_iter_mut_aliases (hsz : 0 < size) (ops : List (ListOp α)) (m0 : LMem α)
    (hwf : m0.WF) (s : Nat) (hs : m0.node s ≠ none) {outs : List (Out α)} {l : LList Unit}
    {m : LMem α}
    (h : LList.history (listEnv P size align nd false) ops () s m0 = .ok (outs, l, m))
    (hne : (ListOp.run ops []).2 ≠ []) (x : α) :
    ∃ p it1 m' it2, l.iter.next m = .ok (some p, it1) ∧
      LList.assign (listEnv P size align nd false) p x m = .ok m' ∧
      l.iter.run 1 m' = .ok ([some x], it2) := by
  obtain ⟨ps, _, h, _⟩ := list_history_ok hsz hwf hs h
  obtain ⟨y, ys, hy⟩ := List.exists_cons_of_ne_nil hne
  rw [hy] at h
  have hlen := h.length
  cases ps with
  | nil => simp at hlen
  | cons p ps =>
    obtain ⟨m', h1, _, h2, _⟩ := h.assign (listEnv_law P align nd hsz m0) x
      (qs := []) (us := []) rfl
    simp only [List.nil_append] at h2
    have hn := h.iter_next (k := 0) (Nat.zero_le _)
    have hr := h2.iterRun 1 0 (Nat.zero_le _)
    simp only [List.range_one, List.map_cons, List.map_nil, Nat.add_zero,
      List.getElem?_cons_zero] at hr hn
    exact ⟨p, _, m', _, by simpa [LList.iter, literAt] using hn, h1,
      by simpa [LList.iter, literAt] using hr⟩

end

theorem nextBucket_congr {K V : Type} {m m' : HMem K V} (h : m'.b = m.b) : ∀ (n : Nat) (p : Ptr),
    nextBucket m' p n = nextBucket m p n := by
  intro n
  induction n with
  | zero => intro p; rfl
  | succ n ih =>
    intro p
    unfold nextBucket
    rw [h]
    cases m.b.read p with
    | error e => rfl
    | ok h => simp only [Exec.ok_bind, ih]

/-- C96, refuted for hash maps, whose mutable iterators can be cloned: `it` is the iterator and its
clone. -/
theorem C96_hash_iter_mut_aliases {K V : Type} {E : HEnv K V Unit} {m0 : HMem K V}
    (S : HSetting E m0) (ops : List (MapOp K V)) (hpk : MapOp.peak E.eq ops [] ≤ 2557710464)
    {outs : List (MapOut K V)} {t : HTable Unit} {m : HMem K V}
    (h : HTable.history E ops m0 = .ok (outs, t, m)) (hne : (MapOp.run E.eq ops []).2 ≠ []) (x : V) :
    ∃ it p it1 m' k it2, t.iter m = .ok it ∧ it.next m = .ok (some p, it1) ∧
      m.modify p (fun c => { c with val := x }) = .ok m' ∧
      it.run m' 1 = .ok ([some (k, x)], it2) := by
  obtain ⟨bl, cs, A⟩ := S.after hpk h
  have hcs : cs.flatten ≠ [] := by
    intro h0
    have := A.perm
    simp only [ents, h0, List.map_nil, List.nil_perm] at this
    exact hne this
  obtain ⟨it, c, ds, e1, e2, e3⟩ := A.rep.core.iter
  obtain ⟨it1, _, _, f1, _, _⟩ := e2.next
  obtain ⟨n, ns, hn⟩ := List.exists_cons_of_ne_nil hcs
  rw [e3, hn] at f1
  simp only [List.head?_cons, Option.map_some] at f1
  have f1' := f1
  unfold HIter.next at f1
  by_cases h0 : it.node = 0
  · rw [if_pos h0] at f1; cases f1
  rw [if_neg h0] at f1
  cases hc : m.node it.node with
  | error e => rw [hc] at f1; cases f1
  | ok c =>
    rw [hc] at f1
    simp only [Exec.ok_bind] at f1
    have hp : it.node = n.1 := by
      by_cases hz : c.next = 0
      · rw [if_pos hz] at f1
        cases hb : nextBucket m it.bucket it.rest with
        | error e => rw [hb] at f1; cases f1
        | ok r => rw [hb] at f1; simp only [Exec.ok_bind, Except.ok.injEq, Prod.mk.injEq,
            Option.some.injEq] at f1; exact f1.1
      · rw [if_neg hz] at f1
        simp only [Except.ok.injEq, Prod.mk.injEq, Option.some.injEq] at f1
        exact f1.1
    obtain ⟨m', g1, g2, g3, _⟩ := HMem.modify_ok (hp ▸ hc) (fun c => { c with val := x })
    have hc' : m'.node it.node = .ok { c with val := x } := by
      have : m'.n.node it.node = some (some { c with val := x }) := by rw [g3, hp]; simp
      simp [HMem.node, NMem.get, this]
    refine ⟨it, n.1, it1, m', c.key, it1, e1, f1', g1, ?_⟩
    have hnx : it.next m' = .ok (some it.node, it1) := by
      unfold HIter.next
      rw [if_neg h0, hc']
      simp only [Exec.ok_bind, nextBucket_congr g2]
      rw [hp] at f1 ⊢
      exact f1
    simp only [HIter.run, hnx, Exec.ok_bind, hc']

/-- C96, the part that is true: one mutable iterator, driven from both ends in any order, never
hands out the same address twice, and only addresses of elements.  Missing: two iterators. -/
theorem C96_one_iterator_partial (E : DEnv α) (hS : 0 < E.S) (ops : List (DeqOp α)) (m0 : DMem α)
    {outs : List (Out α)} {d : Deque} {m : DMem α}
    (h : Deque.history E ops m0 = .ok (outs, d, m)) (its : List IterOp) :
    ∃ it ps, d.iter = .ok it ∧ it.handed its m = .ok ps ∧ ps.Nodup ∧
      ∀ p ∈ ps, ∃ x ∈ (DeqOp.run ops []).2, m.t.read p = .ok x := by
  obtain ⟨pb, lo, bo, bl, h⟩ := history_ok hS h
  obtain ⟨ks, h1, h2, h3⟩ := h.handed its 0 _ (Nat.zero_le _) (Nat.le_refl _)
  simp only [Nat.add_zero] at h1
  refine ⟨_, _, h.iter, h1, ?_, ?_⟩
  · refine List.Nodup.map_on ?_ h2
    intro i hi j hj he
    have := (cellPtr_inj h.t.nodup (h.idx_lt (Nat.le_of_lt (h3 i hi).2))
      (h.idx_lt (Nat.le_of_lt (h3 j hj).2))).1 he
    omega
  · intro p hp
    obtain ⟨k, hk, rfl⟩ := List.mem_map.1 hp
    exact ⟨_, List.getElem_mem (h3 k hk).2, h.head? (h3 k hk).2⟩

/-- Non-vacuity of C96 for hash maps: seven entries; the clone sees what was written. -/
example : (do
      let (_, t, m) ← HTable.history (exampleHash (· % 100)) exampleHashOps exampleHashMem
      let it ← t.iter m
      let (p, _) ← it.next m
      let m ← m.modify (p.getD 0) fun c => { c with val := 12345 }
      let (os, _) ← it.run m 1
      .ok (os.map fun o => o.map Prod.snd)) = (.ok [some 12345] : Exec _) := by decide +kernel

/-- Non-vacuity of C96: both other kinds of containers with three elements. -/
example :
    (do
      let (_, d, m) ← Deque.history ⟨4, true, RawAlloc.bump, RawAlloc.bump⟩
        [.pushBack 1, .pushBack 2, .pushBack 3] ⟨Mem.empty, Mem.empty⟩
      let it ← d.iter
      let (p, _) ← it.next m
      let (_, m1) ← assignOpt ⟨4, true, RawAlloc.bump, RawAlloc.bump⟩ m 7 p
      let (a, _) ← it.step .next m1
      let ps ← it.handed [.next, .nextBack, .next, .next] m
      .ok (a, ps.length)) = (.ok (some 7, 3) : Exec _) ∧
    (do
      let (_, l, m) ← LList.history (listEnv Placer.bump 24 8 true false)
        [.pushBack 1, .pushBack 2, .pushFront 3] () 64 exampleListMem
      let (p, _) ← l.iter.next m
      let m ← LList.assign (listEnv Placer.bump 24 8 true false) (p.getD 0) 7 m
      let (os, _) ← l.iter.run 3 m
      .ok os) = (.ok [some 7, some 1, some 2] : Exec _) := ⟨rfl, rfl⟩

end Verif
