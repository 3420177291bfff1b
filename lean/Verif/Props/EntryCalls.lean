import Verif.HashTable.EntryCalls
import Verif.Props.HashTable

/-!
# Entry closures that panic (C117)
-/

set_option autoImplicit false

namespace Verif
open Spec

variable {K V : Type} {E : HEnv K V Unit} {m0 : HMem K V}

/-- C117.  In histories whose entry calls run closures that may panic, and in which the caller
catches the panics and goes on: every call returns what the finite map says, a panicking call
included; afterwards iterating visits exactly its entries; memory that is not the map's own is
untouched. -/
theorem C117_panicking_closures (S : HSetting E m0) (calls : List (EntryCall K V))
    (hpk : EntryCall.peak E.eq calls [] ≤ 2557710464) :
    ∃ t m it es, HTable.runC E calls (HTable.newIn E ()) m0 =
        .ok ((EntryCall.run E.eq calls []).1, t, m) ∧
      t.count = (EntryCall.run E.eq calls []).2.length ∧
      t.iter m = .ok it ∧ es.Perm (EntryCall.run E.eq calls []).2 ∧ Distinct E.eq es ∧
      (∀ n, ∃ it', it.run m n = .ok ((List.range n).map fun i => es[i]?, it')) ∧
      (∀ q, m0.n.node q ≠ none → m.n.node q = m0.n.node q) ∧
      ∀ b, m0.b.live b ≠ none → m.b.live b = m0.b.live b := by
  obtain ⟨t, m, pk, bl, cs, e1, e2, e3, _⟩ := S.init.runC S.law S.equiv S.hash calls hpk
  obtain ⟨it, c, ds, f1, f2, f3⟩ := e2.core.iter
  refine ⟨t, m, it, ents cs, e1, ?_, f1, e3, e2.core.distinct, fun n => ?_,
    fun q hq => (e2.core.keep q hq).2, fun b hb => e2.core.out b fun hm => ?_⟩
  · rw [e2.count, ← ents_length, e3.length_eq]; rfl
  · obtain ⟨it', c', ds', g1, g2, g3⟩ := f2.run n
    rw [f3] at g1
    exact ⟨it', g1⟩
  · exact hb (e2.core.blNew b hm).1

/-- C117.  After such a history and the drop of the map every node is freed, and every key and value
moved into the map's care, those the closures made included, has been moved out or dropped (`D`),
exactly once: the key of an entry whose default could not be made is dropped. -/
theorem C117_each_exactly_once (S : HSetting E m0) (calls : List (EntryCall K V))
    (hpk : EntryCall.peak E.eq calls [] ≤ 2557710464)
    {outs : List (Option (MapOut K V))} {t : HTable Unit} {m : HMem K V}
    (h : HTable.runC E calls (HTable.newIn E ()) m0 = .ok (outs, t, m)) :
    ∃ a m' D, t.drop E m = .ok (a, m') ∧ m'.n.reg = m0.n.reg ∧ m'.n.node = m0.n.node ∧
      m'.n.dropped.Perm (m0.n.dropped ++ D.filter fun x =>
        match x with | .inl _ => E.ndK | .inr _ => E.ndV) ∧
      (EntryCall.allTaken E.eq calls []).Perm (EntryCall.allGiven E.eq calls [] ++ D) := by
  obtain ⟨t1, m1, pk, bl, cs, g1, g2, g3, g4⟩ := S.init.runC S.law S.equiv S.hash calls hpk
  rw [g1] at h
  simp only [Except.ok.injEq, Prod.mk.injEq] at h
  obtain ⟨_, rfl, rfl⟩ := h
  obtain ⟨a, m', e1, e2, e3⟩ := g2.freeBuckets S.law
  have hinv := e2.inv
  have hnil : addrs (List.replicate t1.bucketCount ([] : List (Nat × K × V))) = [] := by
    simp [addrs]
  rw [hnil] at hinv
  refine ⟨a, m', EntryCall.allDrops E.eq calls [] ++ contents (EntryCall.run E.eq calls []).2,
    by simp [HTable.drop, e1], hinv.done, ?_, ?_, ?_⟩
  · funext q
    by_cases hq : m0.n.node q = none
    · rw [hq]; exact (hinv.node q (by simp)).2 hq
    · exact (e2.keep q hq).2
  · have hneeds : (fun x : K ⊕ V => match x with | .inl _ => E.ndK | .inr _ => E.ndV) = E.needs := by
      funext x; cases x <;> rfl
    rw [hneeds, List.filter_append, ← List.append_assoc]
    exact e3.trans (g4.append ((contents_perm g3).filter _))
  · have := EntryCall.conserve S.equiv calls (s := ([] : List (K × V))) List.Pairwise.nil
    refine this.trans ?_
    rw [← List.append_assoc (EntryCall.allGiven E.eq calls [])]
    exact List.perm_append_comm

/-- Calls with closures that panic: a modification that stops half-way, a default that cannot be
made, for a key that is there and for one that is not. -/
def exampleEntryCalls : List (EntryCall Nat Nat) :=
  [.plain (.insert 1 10), .closures 101 (fun x => (x + 1, true)) (some 5),
    .closures 7 (fun x => (x, true)) none, .closures 7 (fun x => (x, true)) (some 70),
    .closures 107 (fun x => (x + 2, false)) none, .plain (.get 1), .plain (.remove 7),
    .closures 9 (fun x => (x, false)) none, .plain .len]

/-- Non-vacuity of C117: what the calls return (`none`: left by a panic) and what has been dropped
at the end. -/
example : HSetting (exampleHash (· % 100)) exampleHashMem ∧
    EntryCall.peak (exampleHash (· % 100)).eq exampleEntryCalls [] ≤ 2557710464 ∧
    (do
      let (os, t, m) ← HTable.runC (exampleHash (· % 100)) exampleEntryCalls
        (HTable.newIn (exampleHash (· % 100)) ()) exampleHashMem
      let (_, m) ← t.drop (exampleHash (· % 100)) m
      .ok (os, m.n.dropped)) =
    (.ok ([some (.val none), none, none, some (.val (some 70)), some (.val (some 72)),
        some (.val (some 11)), some (.val (some 72)), none, some (.nat 1)],
      [.inl 101, .inl 7, .inl 107, .inl 7, .inl 9, .inl 1, .inr 11]) :
        Exec (List (Option (MapOut Nat Nat)) × List (Nat ⊕ Nat))) :=
  ⟨exampleHash_ok _ (by simp), by decide, by decide +kernel⟩

end Verif
