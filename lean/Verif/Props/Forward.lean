import Verif.Forward.Model
import Verif.Props.Pool
import Verif.Props.Deque
import Verif.Props.HashTable

/-!
# Wrappers (C110)

Types that forward to another container: what they return in terms of sequences and sets, not of
the container they wrap.
-/

set_option autoImplicit false

namespace Verif
open Spec

section
variable {α : Type}

theorem ConformantList.step_eq {σ : Type} (E : LEnv α σ) (op : ListOp α) (l : LList σ)
    (m : LMem α) : ConformantList.step E op l m = l.step E op m := by
  cases op <;> rfl

theorem ConformantList.run_eq {σ : Type} (E : LEnv α σ) : ∀ (ops : List (ListOp α)) (l : LList σ)
    (m : LMem α), ConformantList.run E ops l m = l.run E ops m
  | [], _, _ => rfl
  | op :: ops, l, m => by
    have : (fun s : Out α × LList σ × LMem α => (do
        let (os, l, m) ← ConformantList.run E ops s.2.1 s.2.2
        Except.ok (s.1 :: os, l, m) : Exec _)) = fun s => (do
        let (os, l, m) ← LList.run E ops s.2.1 s.2.2
        Except.ok (s.1 :: os, l, m) : Exec _) := by
      funext s; rw [ConformantList.run_eq E ops]
    simp only [ConformantList.run, LList.run, ConformantList.step_eq]
    exact congrArg (fun f => l.step E op m >>= f) this

/-- C110.  A conformant `FixedList<T, n, _>`, created in place with its sentinel at `s` and its
buffer of `(n + 1) * size - 1` bytes at `buf`, which need not be aligned for the nodes, returns what
a mathematical sequence returns, for every history of calls, and leaves memory that is not its own
untouched. -/
theorem C110_conformant_list {m0 : LMem α} {size align s buf n : Nat} (hwf : m0.WF)
    (hs : m0.node s ≠ none) {r : Range} (hr : m0.reg s = some r) (hlt : s < buf)
    (hpow : ∃ k, align = 2 ^ k) (h8 : 8 ≤ size) (ha : align ∣ size) (hb : 8 ∣ buf)
    (haddr : buf + align ≤ 2 ^ 64) (hend : buf + ((n + 1) * size - 1) ≤ s + r.size)
    (hfree : ∀ q, buf ≤ q → q < buf + ((n + 1) * size - 1) → m0.node q = none)
    (P : Placer (LNode α) α) (nd : Bool) (ops : List (ListOp α)) :
    ∃ l0 m1 l m, fixedListNewIn size align s buf ((n + 1) * size - 1) m0 = .ok (l0, m1) ∧
      ConformantList.run (fixedListEnv P size align nd) ops l0 m1 =
        .ok ((ListOp.run ops []).1, l, m) ∧
      ∀ z, z ≠ s → m0.node z ≠ none → m.node z = m0.node z := by
  obtain ⟨hobj, _⟩ := FixedObj.conformant hwf hs hr hlt hpow h8 ha hb haddr hend hfree
  obtain ⟨l, m, h1, h2⟩ := C44_fixed_list_refines_sequence P nd hobj ops
  unfold fixedListHistory at h1
  obtain ⟨⟨l0, m1⟩, h3, h4⟩ := Exec.bind_ok h1
  exact ⟨l0, m1, l, m, h3, by rw [ConformantList.run_eq]; exact h4, h2⟩

/-- Memory with a fixed list of two nodes of 24 bytes: the sentinel at 64, the buffer at 96. -/
def exampleConformantMem : LMem Nat where
  node a := if a = 64 then some LNode.uninit else none
  link := fun _ => none
  reg a := if a = 64 then some ⟨200, 8, false⟩ else none
  top := 512
  top_ok := by intro a r h; split_ifs at h with h'; cases h; subst h'; decide
  dropped := []

/-- The hypotheses are met: a list of two inline nodes, one of them reused, and one node beyond. -/
example : exampleConformantMem.WF ∧ exampleConformantMem.node 64 ≠ none ∧
    exampleConformantMem.reg 64 = some ⟨200, 8, false⟩ ∧
    (∀ q, 96 ≤ q → q < 96 + ((2 + 1) * 24 - 1) → exampleConformantMem.node q = none) ∧
    (do
      let (l, m) ← fixedListNewIn 24 8 64 96 ((2 + 1) * 24 - 1) exampleConformantMem
      let (os, l, m) ← ConformantList.run (fixedListEnv Placer.bump 24 8 true)
        [.pushBack 1, .pushFront 2, .pushBack 3, .popFront, .pushFront 4, .back, .len] l m
      .ok (os.filterMap fun | .elem x => x | .nat n => some n | _ => none, ← l.addrs m)) =
    (.ok ([2, 3, 3], [120, 96, 4104]) : Exec _) := by
  refine ⟨⟨?_, ?_, ?_⟩, by decide, rfl, ?_, by decide +kernel⟩
  · intro a b r r' h1 h2 hne
    unfold exampleConformantMem at h1 h2
    dsimp only at h1 h2
    split_ifs at h1 h2
    omega
  · intro q hq
    unfold exampleConformantMem at hq ⊢
    dsimp only at hq ⊢
    by_cases h : q = 64
    · exact ⟨64, ⟨200, 8, false⟩, by simp, by omega, by dsimp only; omega⟩
    · rw [if_neg h] at hq; exact absurd rfl hq
  · intro a r h
    unfold exampleConformantMem at h
    dsimp only at h
    split_ifs at h
    omega
  · intro q h1 _
    unfold exampleConformantMem
    dsimp only
    rw [if_neg (by omega)]

/-- C110.  A queue collected from an iterator, put through any calls and turned into its deque:
first the calls return what they return on a first-in first-out queue holding the items in order,
then those on the deque what they return on the sequence that is left. -/
theorem C110_queue_collect_into_inner (E : DEnv α) (hS : 0 < E.S) (xs : List α)
    (qops : List (QueueOp α)) (dops : List (DeqOp α)) (m0 : DMem α) :
    ∃ q m q1 m1 d2 m2, Queue.fromIter E xs m0 = .ok (q, m) ∧
      Queue.run E qops q m = .ok ((QueueOp.run qops xs).1, q1, m1) ∧
      (Queue.intoInner q1).run E dops m1 =
        .ok ((DeqOp.run dops (QueueOp.run qops xs).2).1, d2, m2) := by
  obtain ⟨d0, m1, h1, h2, _⟩ := DInv.newIn E hS m0
  have key : ∀ (xs ys : List α) (d : Deque) (m : DMem α), DInv E m0 m d ys →
      ∃ d' m', xs.foldlM (fun (s : Deque × DMem α) x => s.1.pushBack E x s.2) (d, m) =
        (.ok (d', m') : Exec _) ∧ DInv E m0 m' d' (ys ++ xs) := by
    intro xs
    induction xs with
    | nil => intro ys d m h; exact ⟨d, m, rfl, by simpa using h⟩
    | cons x xs ih =>
      rintro ys d m ⟨pb, lo, bo, bl, h⟩
      obtain ⟨d', m', pb', lo', bl', e1, e2, _⟩ := h.pushBack x
      obtain ⟨d2, m2, e3, e4⟩ := ih (ys ++ [x]) d' m' ⟨_, _, _, _, e2⟩
      exact ⟨d2, m2, by simp [List.foldlM_cons, e1, e3], by simpa using e4⟩
  have keyq : ∀ (ops : List (QueueOp α)) (xs : List α) (d : Deque) (m : DMem α),
      DInv E m0 m d xs → ∃ d' m', Queue.run E ops d m = .ok ((QueueOp.run ops xs).1, d', m') ∧
        DInv E m0 m' d' (QueueOp.run ops xs).2 := by
    intro ops
    induction ops with
    | nil => intro xs d m h; exact ⟨d, m, rfl, h⟩
    | cons op ops ih =>
      intro xs d m h
      have hs : ∃ d' m', Queue.step E op d m = .ok ((op.step xs).1, d', m') ∧
          DInv E m0 m' d' (op.step xs).2 := by
        cases op with
        | push x =>
          obtain ⟨d', m', e1, e2, _⟩ := h.step (.pushBack x); exact ⟨d', m', e1, e2⟩
        | pop => obtain ⟨d', m', e1, e2, _⟩ := h.step .popFront; exact ⟨d', m', e1, e2⟩
        | top => obtain ⟨d', m', e1, e2, _⟩ := h.step .front; exact ⟨d', m', e1, e2⟩
        | len => obtain ⟨d', m', e1, e2, _⟩ := h.step .len; exact ⟨d', m', e1, e2⟩
        | isEmpty => obtain ⟨d', m', e1, e2, _⟩ := h.step .isEmpty; exact ⟨d', m', e1, e2⟩
      obtain ⟨d1, m1, e1, e2⟩ := hs
      obtain ⟨d', m', e3, e4⟩ := ih _ _ _ e2
      exact ⟨d', m', by simp [Queue.run, e1, e3, QueueOp.run], e4⟩
  obtain ⟨d, m, h3, h4⟩ := key xs [] d0 m1 h2
  obtain ⟨q1, mq, h5, h6⟩ := keyq qops xs d m (by simpa using h4)
  obtain ⟨d', m', _, h7, _⟩ := DInv.run dops h6
  exact ⟨d, m, q1, mq, d', m', by simp [Queue.fromIter, Deque.fromIter, h1, h3], h5, h7⟩

example : (do
    let (q, m) ← Queue.fromIter exampleEnv [1, 2, 3, 4, 5] ⟨Mem.empty, Mem.empty⟩
    let (os, q, m) ← Queue.run exampleEnv [.pop, .push 6, .top] q m
    let (ps, _, _) ← (Queue.intoInner q).run exampleEnv [.popBack, .popFront, .len] m
    .ok ((os ++ ps).filterMap fun | .elem x => x | .nat n => some n | _ => none)) =
  (.ok [1, 2, 6, 2, 3] : Exec (List Nat)) := rfl

end

section
variable {K : Type}

theorem HIter.runSet_of {m : HMem K Unit} : ∀ (n : Nat) {it it' : HIter}
    {es : List (Option (K × Unit))}, it.run m n = .ok (es, it') →
    HIter.runSet m n it = .ok (es.map fun o => o.map Prod.fst, it')
  | 0, it, it', es, h => by
    simp only [HIter.run, Except.ok.injEq, Prod.mk.injEq] at h
    obtain ⟨rfl, rfl⟩ := h
    rfl
  | n + 1, it, it', es, h => by
    simp only [HIter.run] at h
    obtain ⟨⟨p, it1⟩, h1, h⟩ := Exec.bind_ok h
    obtain ⟨o, h2, h⟩ := Exec.bind_ok h
    obtain ⟨⟨os, it2⟩, h3, h⟩ := Exec.bind_ok h
    simp only [Except.ok.injEq, Prod.mk.injEq] at h
    obtain ⟨rfl, rfl⟩ := h
    have h4 := HIter.runSet_of n h3
    simp only [HIter.runSet, h1, Exec.ok_bind]
    cases p with
    | none =>
      simp only [Except.ok.injEq] at h2
      subst h2
      simp [h4]
    | some p =>
      dsimp only at h2 ⊢
      obtain ⟨c, hc, h2⟩ := Exec.bind_ok h2
      simp only [Except.ok.injEq] at h2
      subst h2
      simp [hc, h4]

/-- C110.  A `HashSet` collected from keys contains `k` exactly if some key equals `k`, and keeps
the first such key. -/
theorem C110_hash_set_collect {E : HEnv K Unit Unit} {m0 : HMem K Unit} (S : HSetting E m0)
    (ks : List K) (hlen : ks.length ≤ 2557710464) :
    ∃ t m, HTable.collectSet E () ks m0 = .ok (t, m) ∧
      ∀ k, t.stepSet E (.get k) m = .ok (.key (ks.find? fun x => E.eq x k), t, m) ∧
        t.stepSet E (.contains k) m = .ok (.bool (ks.any fun x => E.eq x k), t, m) := by
  obtain ⟨t, m, h1, h2⟩ := C72_hash_from_iter S (ks.map fun k => (k, ())) (by simpa using hlen)
  refine ⟨t, m, h1, fun k => ?_⟩
  have hg : t.get E k m = .ok ((ks.find? fun x => E.eq x k).map fun x => (x, ())) := by
    rw [h2 k, List.find?_map]
    cases hf : ks.find? ((fun p : K × Unit => E.eq p.1 k) ∘ fun k => (k, ())) with
    | none =>
      have : ks.find? (fun x => E.eq x k) = none := hf
      rw [this]; rfl
    | some x =>
      have hx : ks.find? (fun x => E.eq x k) = some x := hf
      rw [hx]
      have : ((ks.map fun k => (k, ())).reverse.find? fun p => E.eq p.1 k).isSome := by
        rw [List.isSome_find?, List.any_reverse, ← List.isSome_find?, List.find?_map, hf]
        rfl
      obtain ⟨q, hq⟩ := Option.isSome_iff_exists.1 this
      simp [hq]
  constructor
  · simp only [HTable.stepSet, hg, Exec.ok_bind, Option.map_map]
    cases ks.find? (fun x => E.eq x k) <;> rfl
  · have : (ks.any fun x => E.eq x k) = (ks.find? fun x => E.eq x k).isSome := by
      rw [List.isSome_find?]
    rw [this]
    simp only [HTable.stepSet, HTable.containsKey, hg, Exec.ok_bind]
    cases ks.find? (fun x => E.eq x k) <;> rfl

/-- Three keys, two of them equal. -/
example : HSetting exampleSet exampleHashMem ∧ (do
    let (t, m) ← HTable.collectSet exampleSet () [7, 12, 7] exampleHashMem
    let (o1, _, _) ← t.stepSet exampleSet (.get 7) m
    let (o2, _, _) ← t.stepSet exampleSet (.contains 13) m
    .ok (o1, o2, t.count)) = (.ok (.key (some 7), .bool false, 2) : Exec _) :=
  ⟨exampleSet_ok, by decide +kernel⟩

/-- C110.  After any history, the iterator of a `HashSet` yields each key of the set once and then
`None` forever; at any point, converting it to its C++-compatible pair and back changes nothing. -/
theorem C110_hash_set_iter {E : HEnv K Unit Unit} {m0 : HMem K Unit} (S : HSetting E m0)
    (ops : List (SetOp K)) (hpk : SetOp.peak E.eq ops [] ≤ 2557710464) (n n' : Nat) :
    ∃ outs t m it, ∃ es : List K, HTable.historySet E ops m0 = .ok (outs, t, m) ∧
      t.iter m = .ok it ∧ es.Perm (SetOp.run id E.eq ops []).2 ∧
      ∃ it1 b e it2, HIter.runSet m n it = .ok ((List.range n).map fun i => es[i]?, it1) ∧
        it1.intoCompatSet m = .ok (b, e) ∧ HIter.fromCompatSet b e = .ok it1 ∧
        HIter.runSet m n' it1 = .ok ((List.range n').map fun i => es[n + i]?, it2) := by
  obtain ⟨t, m, pk, bl, cs, e1, e2, e3⟩ := S.init.runSet S.law S.equiv S.hash ops hpk
  obtain ⟨it, c, ds, f1, f2, f3⟩ := e2.core.iter
  have hk : ∀ i : Nat, ((cs.flatten.map Prod.snd)[i]?).map Prod.fst =
      (keys (ents cs))[i]? := by
    intro i
    simp only [keys, ents, List.getElem?_map]
  obtain ⟨it1, c1, ds1, g1, g2, g3⟩ := f2.run n
  obtain ⟨b, e, k1, k2, _⟩ := g2.compat
  obtain ⟨it2, c2, ds2, l1, _⟩ := g2.run n'
  refine ⟨_, t, m, it, keys (ents cs), e1, f1, ?_, it1, b, e, it2, ?_, k1, k2, ?_⟩
  · have h0 : (SetOp.run (!·) E.eq ops []).2 = (SetOp.run id E.eq ops []).2 := by
      rw [show ([] : List K) = keys ([] : List (K × Unit)) from rfl, ← set_run, ← set_run]
    rw [← h0]
    exact e3
  · rw [HIter.runSet_of n g1, List.map_map, f3]
    congr 2
    exact List.map_congr_left fun i _ => hk i
  · rw [HIter.runSet_of n' l1, List.map_map, g3, f3]
    congr 2
    refine List.map_congr_left fun i _ => ?_
    rw [← hk (n + i), List.map_drop, Function.comp, List.getElem?_drop]

/-- Two of three keys, the conversion there and back, the third and the end. -/
example : (do
    let (_, t, m) ← HTable.historySet exampleSet [.insert 7, .insert 12, .insert 9, .remove 7]
      exampleHashMem
    let it ← t.iter m
    let (a, it) ← HIter.runSet m 1 it
    let (b, e) ← it.intoCompatSet m
    let it ← HIter.fromCompatSet b e
    let (c, _) ← HIter.runSet m 2 it
    .ok (a, c)) = (.ok ([some 12], [some 9, none]) : Exec _) := by decide +kernel

end

end Verif
