import Verif.HashTable.Grants
import Verif.Props.HashTable
import Mathlib.Algebra.Order.Group.Multiset
import Mathlib.Tactic.Abel

/-!
# Hash maps whose allocator panics (C123)

After any history with a working allocator, the allocator may panic in the middle of a call, and the
program catches the panic and goes on using the map.  Each call comes with the number of requests for
memory the allocator grants it; a call makes at most two.
-/

set_option autoImplicit false

namespace Verif
open Spec

variable {K V : Type} {E : HEnv K V Unit} {m0 : HMem K V}

/-- C123, the part that holds of hash maps.  A map that has held an entry, or whose first bucket array
is not refused, may be given any number of calls each of which the allocator may leave with a panic:
only calls that may add an entry panic, and only for want of memory; what the other calls return, and
what the map holds, is what it would be without the calls that panicked; when the map is dropped every
node is freed, and every key and value was handed out or dropped exactly once, those of the calls that
panicked included.  Missing: the first bucket array, see `C123_hash_first_array_refused`. -/
theorem C123_hash_refusals_partial (S : HSetting E m0) (ops : List (MapOp K V))
    (hpk : MapOp.peak E.eq ops [] ≤ 2557710464) {outs0 : List (MapOut K V)} {t : HTable Unit}
    {m : HMem K V} (h : HTable.history E ops m0 = .ok (outs0, t, m)) (calls : List (Nat × MapOp K V))
    (hfirst : MapOp.peak E.eq ops [] ≠ 0 ∨ ∀ c ∈ calls, 1 ≤ c.1)
    (hlen : (MapOp.run E.eq ops []).2.length + calls.length ≤ 2147483776) :
    ∃ (outs : List (Option (MapOut K V))) (t' : HTable Unit) (m' m'' : HMem K V) (a : Unit)
      (D : List (K ⊕ V)),
      HTable.runG E calls t m = .ok (outs, t', m') ∧ outs.length = calls.length ∧
      (∀ p ∈ calls.zip outs, p.2 = none → p.1.1 < 2 ∧ p.1.2.mayAdd = true) ∧
      outs.filterMap id =
        (MapOp.run E.eq (answered (calls.map Prod.snd) outs) (MapOp.run E.eq ops []).2).1 ∧
      (∀ k, t'.get E k m' = .ok (lookup E.eq
        (MapOp.run E.eq (answered (calls.map Prod.snd) outs) (MapOp.run E.eq ops []).2).2 k)) ∧
      t'.count =
        (MapOp.run E.eq (answered (calls.map Prod.snd) outs) (MapOp.run E.eq ops []).2).2.length ∧
      t'.drop E m' = .ok (a, m'') ∧ m''.n.reg = m0.n.reg ∧ m''.n.node = m0.n.node ∧
      m''.n.dropped.Perm (m.n.dropped ++ D.filter fun x =>
        match x with | .inl _ => E.ndK | .inr _ => E.ndV) ∧
      (contents (MapOp.run E.eq ops []).2 ++
        (MapOp.allTaken E.eq (answered (calls.map Prod.snd) outs) (MapOp.run E.eq ops []).2 ++
          (panicked (calls.map Prod.snd) outs).flatMap MapOp.passed)).Perm
        (MapOp.allGiven E.eq (answered (calls.map Prod.snd) outs) (MapOp.run E.eq ops []).2 ++ D) := by
  obtain ⟨bl, cs, A⟩ := S.after hpk h
  have hrep : HRepP PolicyLoose True E (DefInv m0.n E.size E.align) m0.b.live m0.n.node m t
      (MapOp.peak E.eq ops []) bl cs :=
    ⟨A.rep.core, A.rep.count, A.rep.policy.loose, A.rep.peak, A.rep.arrs⟩
  have hf : 1 < t.bucketCount ∨ ∀ c ∈ calls, c.1 ≠ 0 := by
    rcases hfirst with hf | hf
    · left
      rcases hrep.policy with hp | ⟨_, _, hp⟩
      · exact hp
      · exact absurd hp hf
    · exact .inr fun c hc => by have := hf c hc; omega
  obtain ⟨outs, t', m', peak', bl', cs', r1, r2, r3, r4, r5, r6, r7, r8⟩ :=
    hrep.runG S.law S.equiv S.hash calls hf (by rw [A.perm.length_eq]; exact hlen)
  obtain ⟨q1, q2⟩ := run_perm S.equiv (answered (calls.map Prod.snd) outs) A.perm
    A.rep.core.distinct
  have q3 := (allDrops_perm S.equiv (answered (calls.map Prod.snd) outs) A.perm
    A.rep.core.distinct).1
  have hperm := r6.trans q2
  obtain ⟨a, m'', e1, e2, e3⟩ := r5.freeBuckets S.law
  have hinv := e2.inv
  have hnil : addrs (List.replicate t'.bucketCount ([] : List (Nat × K × V))) = [] := by
    simp [addrs]
  rw [hnil] at hinv
  have hneeds : (fun x : K ⊕ V => match x with | .inl _ => E.ndK | .inr _ => E.ndV) = E.needs := by
    funext x; cases x <;> rfl
  have hd0 : Distinct E.eq (MapOp.run E.eq ops []).2 :=
    Distinct.perm S.equiv A.perm A.rep.core.distinct
  generalize hs : (MapOp.run E.eq ops []).2 = s at *
  generalize hret : answered (calls.map Prod.snd) outs = ret at *
  generalize hpan : panicked (calls.map Prod.snd) outs = pan at *
  refine ⟨outs, t', m', m'', a, MapOp.allDrops E.eq ret s ++ pan.flatMap MapOp.passed ++
    contents (MapOp.run E.eq ret s).2, r1, r2, r3, by rw [hret, r4, q1], ?_, ?_,
    by simp [HTable.drop, e1], hinv.done, ?_, ?_, ?_⟩
  · intro k
    rw [hret, ← lookup_perm S.equiv hperm r5.core.distinct k]
    obtain ⟨l1, c, l2, hcs, g1, g2, g3, hcase⟩ := r5.core.locate S.equiv S.hash k
    rcases hcase with ⟨c1, n, c2, rfl, hk, hc1, hlu, hf⟩ | ⟨hc, hlu, hf⟩
    · have hcore := r5.core
      rw [hcs] at hcore
      have hseg := hcore.chains _ (show c1 ++ n :: c2 ∈ l1 ++ (c1 ++ n :: c2) :: l2 by simp)
      simp only [HTable.get, hf, Exec.ok_bind, hseg.node.2, hlu]
    · simp only [HTable.get, hf, Exec.ok_bind, hlu]
  · rw [hret, r5.count, ← ents_length, hperm.length_eq]
  · funext q
    by_cases hq : m0.n.node q = none
    · rw [hq]; exact (hinv.node q (by simp)).2 hq
    · exact (e2.keep q hq).2
  · rw [hneeds, List.filter_append, ← List.append_assoc]
    refine e3.trans (List.Perm.append (r7.trans ?_) ((contents_perm hperm).filter _))
    exact List.Perm.append_left _ ((q3.append_right _).filter _)
  · rw [hret, hpan]
    have := conserve S.equiv ret hd0
    rw [← List.append_assoc]
    refine (this.append_right _).trans ?_
    generalize contents (MapOp.run E.eq ret s).2 = a
    generalize MapOp.allGiven E.eq ret s = b
    generalize MapOp.allDrops E.eq ret s = c
    generalize pan.flatMap MapOp.passed = d
    rw [← Multiset.coe_eq_coe]
    simp only [← Multiset.coe_add]
    abel

/-- The first array of a map without one, refused. -/
theorem insert_into_static (S : HSetting E m0) {m : HMem K V} {t : HTable Unit}
    (hc : HCore True E (DefInv m0.n E.size E.align) m0.b.live m0.n.node m t [] [[]])
    (hcount : t.count = 0) (h1 : t.bucketCount = 1) (hnr : t.nextResize = 2) {g : Nat} (hg : 1 ≤ g)
    {op : MapOp K V} (hadd : op.mayAdd = true) : t.stepG E g op m = .error .ub := by
  have hpol : getRehashRequired t.nextResize t.bucketCount t.count 1 = .ok (none, 2) := by
    rw [hcount, h1, hnr]; decide +kernel
  have himp : ∀ (k : K) (v : V) (i : Nat) (tgt : Ptr), tgt = .loc E.stat i →
      m.b.read tgt = .ok 0 → t.insertImplG E g tgt k v m = .error .ub := by
    intro k v i tgt ht hr
    subst ht
    simp only [HTable.insertImplG, hpol, Exec.ok_bind]
    rw [addNodeG_granted (by omega)]
    obtain ⟨p, a, n, e1, e2, e3, e4, e5, e6⟩ := S.law.alloc (show DefInv m0.n E.size E.align t.al m.n
      (addrs [[]]) from hc.inv)
    have hmod : n.modify p (fun _ => some (⟨k, v, 0⟩ : HCell K V)) =
        .ok { n with node := Function.update n.node p (some (some ⟨k, v, 0⟩)) } := by
      simp [NMem.modify, e4]
    simp only [e1, Exec.ok_bind, hr, hmod, HMem.writeBucket, if_true, Exec.error_bind]
  have hfind : ∀ k : K, ∃ i, t.find E k m = .ok (.loc E.stat i, none) ∧
      m.b.read (.loc E.stat i) = .ok 0 := by
    intro k
    obtain ⟨l1, c, l2, hcs, g1, g2, g3, hcase⟩ := hc.search k
    have hmem : c ∈ [([] : List (Nat × K × V))] := by rw [hcs]; simp
    obtain rfl : c = [] := by simpa using hmem
    rcases hcase with ⟨c1, n, c2, hc', _⟩ | ⟨_, hf⟩
    · simp at hc'
    · exact ⟨_, hf, g3⟩
  cases op with
  | insert k v =>
    obtain ⟨i, hf, hr⟩ := hfind k
    simp only [HTable.stepG, hf, Exec.ok_bind, himp k v i _ rfl hr, Exec.error_bind]
  | entry k f v =>
    obtain ⟨i, hf, hr⟩ := hfind k
    simp only [HTable.stepG, HTable.entry, hf, Exec.ok_bind, HEntry.andModify, himp k v i _ rfl hr,
      Exec.error_bind]
  | _ => cases hadd

theorem PolicyAt.zero {b r : Nat} (h : PolicyAt b r 0) : b = 1 ∧ r = 0 := by
  rcases h with ⟨_, h⟩ | ⟨g, hg, _, _, hlo, _⟩
  · exact h
  · have : ∀ g ∈ stages, 0 < g.lo := by decide +kernel
    have := this g hg
    omega

/-- C123 is false of hash maps.  If the allocator panics at the first insertion into a map that has
never held an entry, the map is left with a threshold that says it has room for two entries but
without an array of its own: the next call that adds an entry, however much memory there is for it,
writes into the read-only array that all empty maps share.  Undefined behaviour in safe code. -/
theorem C123_hash_first_array_refused (S : HSetting E m0) (ops : List (MapOp K V))
    (hpk : MapOp.peak E.eq ops [] = 0) {outs0 : List (MapOut K V)} {t : HTable Unit} {m : HMem K V}
    (h : HTable.history E ops m0 = .ok (outs0, t, m)) (op op' : MapOp K V)
    (hadd : op.mayAdd = true) (hadd' : op'.mayAdd = true) {g : Nat} (hg : 1 ≤ g) :
    ∃ (t1 : HTable Unit) (m1 : HMem K V), t.stepG E 0 op m = .ok (none, t1, m1) ∧
      t1.stepG E g op' m1 = .error .ub := by
  obtain ⟨bl, cs, A⟩ := S.after (by omega) h
  have hpol := A.rep.policy
  have hcnt := A.rep.peak
  rw [hpk] at hpol hcnt
  obtain ⟨hb, hr⟩ := hpol.zero
  have hc0 : t.count = 0 := by omega
  have hbl : bl = [] := A.rep.arrs.2 hb
  subst hbl
  obtain rfl := A.rep.core.empty rfl
  have hpolicy : getRehashRequired t.nextResize t.bucketCount t.count 1 = .ok (some 2, 2) := by
    rw [hc0, hb, hr]; exact policy_first
  have himp : ∀ (tgt : Ptr) (k : K) (v : V), t.insertImplG E 0 tgt k v m =
      .ok (none, { t with nextResize := 2 }, (m.dropVal E v).dropKey E k) := by
    intro tgt k v
    simp only [HTable.insertImplG, hpolicy, Exec.ok_bind, if_true]
  have hfind : ∀ k : K, ∃ tgt, t.find E k m = .ok (tgt, none) := by
    intro k
    obtain ⟨l1, c, l2, hcs, g1, g2, g3, hcase⟩ := A.rep.core.search k
    have hmem : c ∈ [([] : List (Nat × K × V))] := by rw [hcs]; simp
    obtain rfl : c = [] := by simpa using hmem
    rcases hcase with ⟨c1, n, c2, hc', _⟩ | ⟨_, hf⟩
    · simp at hc'
    · exact ⟨_, hf⟩
  have hfin : ∀ (k : K) (v : V), HTable.stepG E g op' { t with nextResize := 2 }
      ((m.dropVal E v).dropKey E k) = .error .ub := fun k v =>
    insert_into_static S (((A.rep.core.resize 2).dropVal S.law v).dropKey S.law k) hc0 hb rfl hg hadd'
  cases op with
  | insert k v =>
    obtain ⟨tgt, hf⟩ := hfind k
    exact ⟨_, _, by simp only [HTable.stepG, hf, Exec.ok_bind, himp, Option.map_none], hfin k v⟩
  | entry k f v =>
    obtain ⟨tgt, hf⟩ := hfind k
    exact ⟨_, _, by simp only [HTable.stepG, HTable.entry, hf, Exec.ok_bind, HEntry.andModify, himp],
      hfin k v⟩
  | _ => cases hadd

/-- A map of two entries: a third key asks for a larger array and is refused it.  The next new keys
ask only for nodes, one of which is refused; the map works on.  A map refused its first array does
not. -/
example : (do
      let (_, t, m) ← HTable.history (exampleHash (· % 100)) [.insert 1 10, .insert 2 20]
        exampleHashMem
      let (os, t, m) ← HTable.runG (exampleHash (· % 100)) [(0, .insert 3 30), (0, .get 2),
        (1, .entry 4 id 40), (0, .insert 1 11), (2, .insert 5 50), (0, .insert 6 60), (0, .len)] t m
      let (_, m) ← t.drop (exampleHash (· % 100)) m
      .ok (os.map Option.isSome, t.count, m.n.dropped)) =
    (.ok ([false, true, true, true, true, false, true], 4,
      [.inr 30, .inl 3, .inl 1, .inr 60, .inl 6, .inl 2, .inr 20, .inl 4, .inr 40, .inl 1, .inr 11,
       .inl 5, .inr 50]) :
      Exec (List Bool × Nat × List (Nat ⊕ Nat))) := by
  decide +kernel

example : (do
      let (o, t, m) ← HTable.stepG (exampleHash (· % 100)) 0 (.insert 1 10)
        (HTable.newIn (exampleHash (· % 100)) ()) exampleHashMem
      let (o', _, _) ← HTable.stepG (exampleHash (· % 100)) 9 (.insert 2 20) t m
      .ok (o.isSome, o'.isSome)) = (.error .ub : Exec (Bool × Bool)) := by
  decide +kernel

end Verif
