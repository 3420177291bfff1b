import Verif.HashTable.OracleRun
import Verif.HashTable.OracleSteady
import Verif.Props.KeyPanics

/-!
# Hash functions and equalities with a state of their own (C106)
-/

set_option autoImplicit false

namespace Verif
open Spec

variable {τ K V : Type}

/-- C106.  Let hash function and `==` be any code that has a state, answers differently each time it
is run, also within one call, and panics when it likes.  In every history of calls no call follows a
dangling pointer or runs forever, each call returns honestly or is left by a panic, and a panic is
one of the hash function or `==`; what is dropped is what a call owned or gave up, memory that is not
the map's stays as it was, and dropping the map frees every node but those lost, and drops every
entry it still holds, once.  (A history of more than 2147483776 calls may end earlier, with the panic
of the growth policy that finds too many entries, see C52.) -/
theorem C106_unsteady_keys_are_safe (E : HEnv K V Unit) (m0 : HMem K V) (S : HPlace E m0)
    (F : HashFns τ K) (s0 : τ) (ops : List (MapOp K V)) :
    (2147483776 < ops.length ∧ HTable.runO E F ops s0 (HTable.newIn E ()) m0 = .error .panic) ∨
    ∃ (outs : List (Option (MapOut K V))) (s : τ) (t : HTable Unit) (m : HMem K V)
      (cs : List (List (Nat × K × V))) (lost : Nat) (leak : List (Nat × K × V)) (d : List (K ⊕ V)),
      HTable.runO E F ops s0 (HTable.newIn E ()) m0 = .ok (outs, s, t, m) ∧
      ((∀ s k, (F.hash s k).1 ≠ none) → (∀ s a b, (F.eq s a b).1 ≠ none) → none ∉ outs) ∧
      t.dump m = .ok cs ∧ t.count = cs.flatten.length + lost ∧
      ShakenRun ops outs [] 0 (cs.flatten.map Prod.snd) lost (leak.map Prod.snd) d ∧
      m.n.dropped.Perm (m0.n.dropped ++ d.filter fun x =>
        match x with | .inl _ => E.ndK | .inr _ => E.ndV) ∧
      (∀ b, m0.b.live b ≠ none → m.b.live b = m0.b.live b) ∧
      (∀ q, m0.n.node q ≠ none → m.n.node q = m0.n.node q) ∧
      ∃ a m', t.drop E m = .ok (a, m') ∧
        (∀ q, q ∉ leak.map Prod.fst → m'.n.node q = m0.n.node q ∧ m'.n.reg q = m0.n.reg q) ∧
        (leak.map Prod.fst).Nodup ∧
        (∀ q ∈ leak.map Prod.fst, m0.n.node q = none ∧ m'.n.node q ≠ none) ∧
        m'.n.dropped.Perm (m.n.dropped ++ (contents (cs.flatten.map Prod.snd)).filter fun x =>
          match x with | .inl _ => E.ndK | .inr _ => E.ndV) := by
  have L : HLaw E (DefInv m0.n E.size E.align) := by
    obtain ⟨P, hP⟩ := S.alloc
    unfold HLaw
    rw [hP]
    exact defaultNAlloc_law P none true S.size (by simp) m0.n
  have hr : HRep False E (DefInv m0.n E.size E.align) m0.b.live m0.n.node m0 (HTable.newIn E ()) 0 []
      [[]] := HRep.init S.static (DefInv.init S.wf E.size E.align)
  have h0 : HLoose E (DefInv m0.n E.size E.align) m0.b.live m0.n.node m0 (HTable.newIn E ()) []
      [[]] [] 0 := by
    refine ⟨hr.core.mono ?_, rfl, fun _ => rfl, fun _ => ⟨rfl, rfl⟩⟩
    rw [List.append_nil]
    exact hr.core.inv
  have hneeds : (fun x : K ⊕ V => match x with | .inl _ => E.ndK | .inr _ => E.ndV) = E.needs := by
    funext x; cases x <;> rfl
  rcases h0.runO L (F := F) ops s0 with
    ⟨hbig, e1⟩ | ⟨os, s, t, m, bl, cs, g, lost, d, e1, e5, e2, e3, e4⟩
  · rw [show (HTable.newIn E ()).count = 0 from rfl] at hbig
    exact .inl ⟨by omega, e1⟩
  right
  rw [List.append_nil] at e2
  obtain ⟨a, m', f1, f2, f3⟩ := e2.core.freeBuckets (NLaw.aside L _) e2.arrs
  have hinv := f2.inv
  have hnil : addrs (List.replicate t.bucketCount ([] : List (Nat × K × V))) = [] := by
    simp [addrs]
  simp only [hnil, List.nil_append] at hinv
  rw [hneeds]
  refine ⟨os, s, t, m, cs, lost, g, d, e1, fun h1 h2 => e5 ⟨h1, h2⟩, e2.core.dump, e2.count, e3, e4,
    ?_, ?_, a, m', by simp [HTable.drop, f1], ?_, hinv.nodup, hinv.live, f3⟩
  · exact fun b hb => e2.core.out b fun hm => hb (e2.core.blNew b hm).1
  · exact fun q hq => (e2.core.keep q hq).2
  · intro q hg
    refine ⟨?_, hinv.out q hg⟩
    by_cases hq : m0.n.node q = none
    · rw [hq]; exact (hinv.node q hg).2 hq
    · exact (f2.keep q hq).2

/-- A hash function that answers something else, and an equality that changes its mind, each time;
run number 20 panics. -/
def moodyKeys : HashFns Nat Nat where
  hash s k := (if s = 20 then none else some (k + s), s + 1)
  eq s a b := (if s = 20 then none else some (a == b && s % 3 != 0), s + 1)

/-- The map does not find the key 1, which it holds, and loses two entries to the panic, which comes
while it grows; `len` still counts them. -/
example : HPlace (exampleHash id) exampleHashMem ∧ (do
    let (o, _, t, m) ← HTable.runO (exampleHash id) moodyKeys
      [.insert 1 10, .insert 2 20, .insert 2 21, .get 1, .insert 3 30, .insert 4 40, .len,
       .insert 5 50, .insert 6 60, .len]
      0 (HTable.newIn (exampleHash id) ()) exampleHashMem
    let cs ← t.dump m
    .ok (o, cs.flatten.map Prod.snd, m.n.dropped)) =
    (.ok ([some (.val none), some (.val none), some (.val (some 20)), some (.val none),
      some (.val none), some (.val none), some (.nat 4), some (.val none), none, some (.nat 5)],
      [(4, 40), (1, 10), (2, 21)], [.inl 2, .inl 6, .inr 60]) :
      Exec (List (Option (MapOut Nat Nat)) × List (Nat × Nat) × List (Nat ⊕ Nat))) := by
  refine ⟨?_, by decide +kernel⟩
  have := exampleHash_ok (· % 100) (by simp)
  exact ⟨this.alloc, this.size, this.wf, this.static⟩

/-- C106.  If the answers do not depend on the state, the calls are those of the other properties. -/
theorem C106_steady_keys (E : HEnv K V Unit) (F : HashFns τ K)
    (hhash : ∀ s k, (F.hash s k).1 = some (E.hash k))
    (heq : ∀ s a b, (F.eq s a b).1 = some (E.eq a b)) (ops : List (MapOp K V)) (s0 : τ)
    (t : HTable Unit) (m : HMem K V) :
    ∃ s, HTable.runO E F ops s0 t m =
      (HTable.run E ops t m).map fun r => (r.1.map some, s, r.2.1, r.2.2) :=
  runO_like ⟨hhash, heq⟩ ops s0 t m

/-- Functions that only count how often they were run. -/
def countedKeys : HashFns Nat Nat where
  hash s k := (some (k % 100), s + 1)
  eq s a b := (some (a % 100 == b % 100), s + 1)

example : (∀ s k, (countedKeys.hash s k).1 = some ((exampleHash (· % 100)).hash k)) ∧
    (∀ s a b, (countedKeys.eq s a b).1 = some ((exampleHash (· % 100)).eq a b)) ∧ (do
    let (o, s, _, _) ← HTable.runO (exampleHash (· % 100)) countedKeys
      [.insert 1 10, .insert 2 20, .insert 1 11, .get 2, .remove 1, .len]
      0 (HTable.newIn (exampleHash (· % 100)) ()) exampleHashMem
    .ok (o, s)) = 
    (.ok ([some (.val none), some (.val none), some (.val (some 10)), some (.val (some 20)),
      some (.val (some 11)), some (.nat 1)], 9) : Exec (List (Option (MapOut Nat Nat)) × Nat)) :=
  ⟨fun _ _ => rfl, fun _ _ _ => rfl, by decide +kernel⟩

end Verif
