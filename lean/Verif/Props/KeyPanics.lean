import Verif.Unwind.KeysFacts
import Verif.Props.Compare

/-!
# Panics of the hash function and of the equality (C101, C102)
-/

set_option autoImplicit false

namespace Verif
open Spec

variable {K V : Type} {E : HEnv K V Unit} {m0 : HMem K V}

/-! ## C101 -/

/-- C101.  In every history of calls, whatever the hash function and `==` are in each call and after
however many calls each time one of them panics, no call follows a dangling pointer, each call
returns honestly or is left by the panic, what is dropped is what a call owned or gave up, memory
that is not the map's stays as it was, and dropping the map frees every node but those lost, and
drops every entry it still holds, once.  (A history of more than 2147483776 calls may end earlier,
with the panic of the growth policy that finds too many entries, see C52.) -/
theorem C101_key_panics_are_safe (E : HEnv K V Unit) (m0 : HMem K V) (S : HPlace E m0)
    (ops : List ((K → Nat) × (K → K → Bool) × Nat × MapOp K V)) :
    (2147483776 < ops.length ∧ HTable.runU E ops (HTable.newIn E ()) m0 = .error .panic) ∨
    ∃ (outs : List (Option (MapOut K V))) (t : HTable Unit) (m : HMem K V)
      (cs : List (List (Nat × K × V))) (lost : Nat) (leak : List (Nat × K × V)) (d : List (K ⊕ V)),
      HTable.runU E ops (HTable.newIn E ()) m0 = .ok (outs, t, m) ∧
      t.dump m = .ok cs ∧ t.count = cs.flatten.length + lost ∧
      ShakenRun (ops.map fun o => o.2.2.2) outs [] 0 (cs.flatten.map Prod.snd) lost
        (leak.map Prod.snd) d ∧
      m.n.dropped.Perm (m0.n.dropped ++ d.filter fun x =>
        match x with | .inl _ => E.ndK | .inr _ => E.ndV) ∧
      (∀ b, m0.b.live b ≠ none → m.b.live b = m0.b.live b) ∧
      (∀ q, m0.n.node q ≠ none → m.n.node q = m0.n.node q) ∧
      ∃ a m', t.drop E m = .ok (a, m') ∧
        (∀ q, q ∉ leak.map Prod.fst → m'.n.node q = m0.n.node q ∧ m'.n.reg q = m0.n.reg q) ∧
        (leak.map Prod.fst).Nodup ∧
        (∀ q ∈ leak.map Prod.fst, m0.n.node q = none ∧ m'.n.node q ≠ none) ∧
        m'.n.dropped.Perm (m.n.dropped ++ (contents (cs.flatten.map Prod.snd)).filter fun x =>
          match x with | .inl _ => E.ndK | .inr _ => E.ndV) := by
  have L : HLaw E (DefInv m0.n E.size E.align) := by
    obtain ⟨P, hP⟩ := S.alloc
    unfold HLaw
    rw [hP]
    exact defaultNAlloc_law P none true S.size (by simp) m0.n
  have hr : HRep False E (DefInv m0.n E.size E.align) m0.b.live m0.n.node m0 (HTable.newIn E ()) 0 []
      [[]] := HRep.init S.static (DefInv.init S.wf E.size E.align)
  have h0 : HLoose E (DefInv m0.n E.size E.align) m0.b.live m0.n.node m0 (HTable.newIn E ()) []
      [[]] [] 0 := by
    refine ⟨hr.core.mono ?_, rfl, fun _ => rfl, fun _ => ⟨rfl, rfl⟩⟩
    rw [List.append_nil]
    exact hr.core.inv
  have hneeds : (fun x : K ⊕ V => match x with | .inl _ => E.ndK | .inr _ => E.ndV) = E.needs := by
    funext x; cases x <;> rfl
  rcases h0.runU L ops with ⟨hbig, e1⟩ | ⟨os, t, m, bl, cs, g, lost, d, e1, e2, e3, e4⟩
  · rw [show (HTable.newIn E ()).count = 0 from rfl] at hbig
    exact .inl ⟨by omega, e1⟩
  right
  rw [List.append_nil] at e2
  obtain ⟨a, m', f1, f2, f3⟩ := e2.core.freeBuckets (NLaw.aside L _) e2.arrs
  have hinv := f2.inv
  have hnil : addrs (List.replicate t.bucketCount ([] : List (Nat × K × V))) = [] := by
    simp [addrs]
  simp only [hnil, List.nil_append] at hinv
  rw [hneeds]
  refine ⟨os, t, m, cs, lost, g, d, e1, e2.core.dump, e2.count, e3, e4, ?_, ?_, a, m',
    by simp [HTable.drop, f1], ?_, hinv.nodup, hinv.live, f3⟩
  · exact fun b hb => e2.core.out b fun hm => hb (e2.core.blNew b hm).1
  · exact fun q hq => (e2.core.keep q hq).2
  · intro q hg
    refine ⟨?_, hinv.out q hg⟩
    by_cases hq : m0.n.node q = none
    · rw [hq]; exact (hinv.node q hg).2 hq
    · exact (f2.keep q hq).2

/-- Five entries; adding a sixth the table grows, and the hash of the third entry to be moved panics.
Two entries are lost though `len` still says five; the map goes on. -/
example : HPlace (exampleHash id) exampleHashMem ∧ (do
    let good := fun (op : MapOp Nat Nat) => ((id : Nat → Nat), (fun a b : Nat => a == b), 100, op)
    let (o, t, m) ← HTable.runU (exampleHash id)
      [good (.insert 1 10), good (.insert 2 20), good (.insert 3 30), good (.insert 4 40),
       good (.insert 5 50), (id, fun a b => a == b, 4, .insert 6 60),
       good (.get 1), good (.get 2), good (.get 3), good (.get 4), good (.get 5), good (.get 6),
       good .len, (id, fun a b => a == b, 0, .remove 4), good (.insert 7 70), good .len]
      (HTable.newIn (exampleHash id) ()) exampleHashMem
    let cs ← t.dump m
    .ok (o, cs.flatten.map Prod.snd, m.n.dropped)) =
    (.ok ([some (.val none), some (.val none), some (.val none), some (.val none),
      some (.val none), none, some (.val none), some (.val (some 20)), some (.val (some 30)),
      some (.val (some 40)), some (.val none), some (.val none), some (.nat 5), none,
      some (.val none), some (.nat 6)], [(7, 70), (2, 20), (3, 30), (4, 40)], [.inl 6, .inr 60]) :
      Exec (List (Option (MapOut Nat Nat)) × List (Nat × Nat) × List (Nat ⊕ Nat))) := by
  refine ⟨?_, by decide +kernel⟩
  have := exampleHash_ok (· % 100) (by simp)
  exact ⟨this.alloc, this.size, this.wf, this.static⟩

/-- C101.  If the panic would come late enough the call is the call of the other properties. -/
theorem C101_late_panic_is_none (S : HSetting E m0) (ops : List (MapOp K V))
    (hpk : MapOp.peak E.eq ops [] ≤ 2557710464) {outs : List (MapOut K V)} {t : HTable Unit}
    {m : HMem K V} (h : HTable.history E ops m0 = .ok (outs, t, m)) (op : MapOp K V) :
    ∃ e, ∀ n, e ≤ n →
      t.stepU E op n m = (t.step E op m).map fun r => (some r.1, r.2.1, r.2.2) := by
  obtain ⟨bl, cs, A⟩ := S.after hpk h
  exact A.rep.core.forget.stepU_returns S.law op

example : ∃ t m, HTable.history (exampleHash (· % 100)) exampleHashOps exampleHashMem =
      .ok ((MapOp.run (exampleHash (· % 100)).eq exampleHashOps []).1, t, m) ∧
    ∃ e, ∀ n, e ≤ n → t.stepU (exampleHash (· % 100)) (.insert 6 60) n m =
      (t.step (exampleHash (· % 100)) (.insert 6 60) m).map fun r => (some r.1, r.2.1, r.2.2) := by
  obtain ⟨t, m, h, _⟩ := C45_hash_map_refines_map (exampleHash_ok (· % 100) (by simp))
    exampleHashOps (by decide)
  exact ⟨t, m, h, C101_late_panic_is_none (exampleHash_ok (· % 100) (by simp)) exampleHashOps
    (by decide) h _⟩

/-! ## C102 -/

/-- A call that adds a new key: what it does to the number of buckets. -/
theorem HAfter.grown (S : HSetting E m0) {ops : List (MapOp K V)} {t : HTable Unit} {m : HMem K V}
    {bl : List Nat} {cs : List (List (Nat × K × V))} (A : HAfter E m0 ops t m bl cs)
    (hmax : t.count < 2557710464) {op : MapOp K V} (ha : op.adds = true) {k : K}
    (hk : op.owns.head? = some (.inl k)) {b : Ptr} (hf : t.find E k m = .ok (b, none)) :
    ∃ r nr o t2 m2, getRehashRequired t.nextResize t.bucketCount t.count 1 = .ok (r, nr) ∧
      t.step E op m = .ok (o, t2, m2) ∧ t2.bucketCount = r.getD t.bucketCount ∧
      ∀ b, r = some b → t.bucketCount < b := by
  obtain ⟨l1, c, l2, hcs, g1, g2, g3, hcase⟩ := A.rep.core.locate S.equiv S.hash k
  rcases hcase with ⟨c1, x, c2, rfl, hkx, hc1, hl, hf'⟩ | ⟨hc, hl, hf'⟩
  · rw [hf] at hf'; simp at hf'
  rw [hf] at hf'
  simp only [Except.ok.injEq, Prod.mk.injEq, and_true] at hf'
  rw [← hf'] at g2
  obtain ⟨r, nr, p1, p2, p3, p4⟩ := A.rep.policy.step A.rep.peak hmax
  have hins : ∀ v : V, ∃ p t2 m2, t.insertImpl E b k v m = .ok (p, t2, m2) ∧
      t2.bucketCount = r.getD t.bucketCount ∧ ∃ x, m2.node p = .ok ⟨k, v, x⟩ := by
    intro v
    obtain ⟨p, t2, m2, bl', cs', e1, e2, e3, e4, e5, e6, e7, e8, _⟩ :=
      A.rep.insertImpl S.law (fun _ => S.equiv) (v := v) (fun _ => hl) hmax g2
    exact ⟨p, t2, m2, e1, (e2.policy.unique p2).1, e8⟩
  cases op with
  | insert k' v =>
    obtain rfl : k' = k := by simpa [MapOp.owns] using hk
    obtain ⟨p, t2, m2, e1, e2, _⟩ := hins v
    exact ⟨r, nr, .val none, t2, m2, p1,
      by simp only [HTable.step, HTable.insert, hf, Exec.ok_bind, e1], e2,
      fun b hb => (p4 b hb).1⟩
  | entry k' f v =>
    obtain rfl : k' = k := by simpa [MapOp.owns] using hk
    obtain ⟨p, t2, m2, e1, e2, x, e3⟩ := hins v
    exact ⟨r, nr, .val (some v), t2, m2, p1, by
      simp only [HTable.step, HTable.entry, hf, Exec.ok_bind, HEntry.andModify, HEntry.orInsert,
        HEntry.orInsertWith, e1, if_true, e3], e2, fun b hb => (p4 b hb).1⟩
  | _ => cases ha

/-- C102, where it holds: a call left by a panic, that would not have changed the number of buckets,
leaves the map as it was.  Missing: calls that grow the table (see the next theorem). -/
theorem C102_panic_changes_nothing_partial (S : HSetting E m0) (ops : List (MapOp K V))
    (hpk : MapOp.peak E.eq ops [] ≤ 2557710464) {outs : List (MapOut K V)} {t : HTable Unit}
    {m : HMem K V} (h : HTable.history E ops m0 = .ok (outs, t, m)) (hmax : t.count < 2557710464)
    (op : MapOp K V)
    (hsame : ∀ o t2 m2, t.step E op m = .ok (o, t2, m2) → t2.bucketCount = t.bucketCount)
    {n : Nat} {t' : HTable Unit} {m' : HMem K V} (hp : t.stepU E op n m = .ok (none, t', m')) :
    t' = t ∧ m'.b = m.b ∧ m'.n.node = m.n.node ∧ m'.n.link = m.n.link ∧ m'.n.reg = m.n.reg ∧
    ∃ d : List (K ⊕ V), d.Sublist op.owns ∧ m'.n.dropped = m.n.dropped ++ d.filter fun x =>
      match x with | .inl _ => E.ndK | .inr _ => E.ndV := by
  obtain ⟨bl, cs, A⟩ := S.after hpk h
  have hneeds : (fun x : K ⊕ V => match x with | .inl _ => E.ndK | .inr _ => E.ndV) = E.needs := by
    funext x; cases x <;> rfl
  rw [hneeds]
  rcases A.rep.core.forget.stepU_panics hp with hu | ⟨ha, k, b, b', nr, hk, hf, hr⟩
  · exact ⟨hu.table, hu.arrays, hu.node, hu.link, hu.reg, hu.dropped⟩
  · obtain ⟨r, nr', o, t2, m2, e1, e2, e3, e4⟩ := A.grown S hmax ha hk hf
    rw [hr] at e1
    simp only [Except.ok.injEq, Prod.mk.injEq] at e1
    rw [← e1.1] at e3
    have h1 := e4 b e1.1.symm
    have h2 := hsame o t2 m2 e2
    simp only [Option.getD_some] at e3
    omega

/-- C102, and where it fails: inserting a new key into a map that has to grow.  If the panic comes
after `j` of the entries were moved, with `0 < j` and `j` less than the number of entries, then some
entry is lost: it is not found any more, although `len` is as before.  If it comes before the first
or after the last was moved, every lookup answers as before. -/
theorem C102_panic_loses_entries (S : HSetting E m0) (hrefl : ∀ k, E.eq k k = true)
    (ops : List (MapOp K V)) (hpk : MapOp.peak E.eq ops [] ≤ 2557710464) {outs : List (MapOut K V)}
    {t : HTable Unit} {m : HMem K V} (h : HTable.history E ops m0 = .ok (outs, t, m))
    (hmax : t.count < 2557710464) (k : K) (v : V) {o : MapOut K V} {t2 : HTable Unit}
    {m2 : HMem K V} (hstep : t.step E (.insert k v) m = .ok (o, t2, m2))
    (hgrow : t2.bucketCount ≠ t.bucketCount) :
    ∃ e, ∀ j,
      (0 < j → j < t.count → ∃ t' m' k' v',
        t.stepU E (.insert k v) (1 + e + j) m = .ok (none, t', m') ∧ t'.count = t.count ∧
        t.step E (.get k') m = .ok (.val (some v'), t, m) ∧
        t'.step E (.get k') m' = .ok (.val none, t', m')) ∧
      (j = 0 ∨ j = t.count → ∃ t' m',
        t.stepU E (.insert k v) (1 + e + j) m = .ok (none, t', m') ∧ t'.count = t.count ∧
        ∀ k', ∃ x, t.step E (.get k') m = .ok (.val x, t, m) ∧
          t'.step E (.get k') m' = .ok (.val x, t', m')) ∧
      (t.count < j → t.stepU E (.insert k v) (1 + e + j) m = .ok (some o, t2, m2)) := by
  obtain ⟨bl, cs, A⟩ := S.after hpk h
  have hcount := A.rep.count
  have hget : ∀ k', t.step E (.get k') m =
      .ok (.val ((lookup E.eq (ents cs) k').map Prod.snd), t, m) := by
    intro k'
    simp only [HTable.step, A.rep.core.get S.equiv S.hash, Exec.ok_bind]
  obtain ⟨e, b, o', _, e2, e3⟩ := A.rep.core.findU k
  -- the key is new
  have ho : o' = none := by
    obtain ⟨l1, c, l2, hcs, g1, g2, g3, hcase⟩ := A.rep.core.search k
    rcases hcase with ⟨c1, x, c2, rfl, hk, hc1, hf⟩ | ⟨hc, hf⟩
    · exfalso
      have hcore := A.rep.core
      rw [hcs] at hcore
      have hseg := hcore.chains _ (show c1 ++ x :: c2 ∈ l1 ++ (c1 ++ x :: c2) :: l2 by simp)
      obtain ⟨m1, f1, _⟩ := hcore.setNode S.law (fun _ => v)
      simp only [HTable.step, HTable.insert, hf, Exec.ok_bind, hseg.node.2, f1, Except.ok.injEq,
        Prod.mk.injEq] at hstep
      exact hgrow (by rw [← hstep.2.1])
    · rw [e2] at hf
      simp only [Except.ok.injEq, Prod.mk.injEq] at hf
      exact hf.2
  subst ho
  obtain ⟨r, nr, o1, t1, m1, p1, p2, p3, p4⟩ := A.grown S hmax (op := .insert k v) rfl rfl e2
  rw [hstep] at p2
  simp only [Except.ok.injEq, Prod.mk.injEq] at p2
  obtain ⟨rfl, rfl, rfl⟩ := p2
  obtain ⟨bc, rfl⟩ : ∃ bc, r = some bc := by
    cases r with
    | none => exact absurd p3 hgrow
    | some bc => exact ⟨bc, rfl⟩
  have hbc := p4 bc rfl
  have hc0 := A.rep.core.resize nr
  have hU : ∀ j, t.stepU E (.insert k v) (1 + e + j) m = (do
      let (o, t, m) ← t.insertImplU E b k v j m
      .ok (o.map fun _ => .val none, t, m)) := by
    intro j
    simp only [HTable.stepU, HTable.insertU, e3, if_neg (show ¬ 1 + e + j < e + 1 by omega),
      Exec.ok_bind, show 1 + e + j - (e + 1) = j by omega]
    cases t.insertImplU E b k v j m with
    | error x => rfl
    | ok r =>
      obtain ⟨o, t, m⟩ := r
      cases o <;> rfl
  -- left while moving
  have hmid : ∀ j, j < t.count → ∃ (m1 : HMem K V) (nb b0 : Nat) (bs : List Nat)
      (A : List (List (Nat × K × V))) (d : List (Nat × K × V)) (B : List (List (Nat × K × V)))
      (i : Nat) (mid lost : List (Nat × K × V)), t.stepU E (.insert k v) (1 + e + j) m =
        .ok (none, { t with nextResize := nr }, (m1.dropKey E k).dropVal E v) ∧
      cs = A ++ d :: B ∧ i < d.length ∧ A.flatten.length + i = j ∧ (i = 0 → mid = d) ∧
      (0 < i → ∀ x ∈ mid, x ∈ A.flatten ++ d.take i) ∧
      HCore False E (fun a m ps => DefInv m0.n E.size E.align a m (ps ++ lost.map Prod.fst))
        m0.b.live m0.n.node ((m1.dropKey E k).dropVal E v) { t with nextResize := nr }
        (b0 :: nb :: bs) (List.replicate A.length [] ++ mid :: B) := by
    intro j hj
    obtain ⟨m1, nb, b0, bs, A', d, B, i, mid, lost, f1, f2, f3, f4, f5, f6, f7, f8, f9, f10, _⟩ :=
      hc0.forget.rehashU_panics S.law (bc := bc) (by omega) (n := j) (by rw [← hcount]; exact hj)
    have La := NLaw.aside S.law (lost.map Prod.fst)
    refine ⟨m1, nb, b0, bs, A', d, B, i, mid, lost, ?_, f3, f4, f5, f6, f7,
      (f10.dropKey La k).dropVal La v⟩
    rw [hU]
    simp only [HTable.insertImplU, p1, Exec.ok_bind, f1, Option.map_none]
  refine ⟨e, fun j => ⟨fun hj0 hj => ?_, fun hj => ?_, fun hj => ?_⟩⟩
  · obtain ⟨m1, nb, b0, bs, A', d, B, i, mid, lost, f1, rfl, f3, f4, f5, f6, f7⟩ := hmid j hj
    obtain ⟨x, hx, hl⟩ := A.rep.core.lost S.equiv f7 rfl f3 (by omega) f6
    have hlook : lookup E.eq (ents (A' ++ d :: B)) x.2.1 = some x.2 := by
      rw [lookup_some S.equiv A.rep.core.distinct]
      exact ⟨List.mem_map_of_mem hx, hrefl _⟩
    refine ⟨_, _, x.2.1, x.2.2, f1, rfl, by rw [hget, hlook]; rfl, ?_⟩
    simp only [HTable.step, hl, Exec.ok_bind, Option.map_none]
  · rcases Nat.lt_or_ge j t.count with hlt | hge
    · obtain ⟨m1, nb, b0, bs, A', d, B, i, mid, lost, f1, rfl, f3, f4, f5, f6, f7⟩ := hmid j hlt
      obtain rfl : i = 0 := by omega
      obtain rfl := f5 rfl
      have hA : List.replicate A'.length [] = A' := by
        symm
        rw [List.eq_replicate_iff]
        refine ⟨rfl, fun c hc => ?_⟩
        have hl : A'.flatten = [] := List.length_eq_zero_iff.1 (by omega)
        exact List.flatten_eq_nil_iff.1 hl c hc
      rw [hA] at f7
      have f8 : HCore True E (fun a m ps => DefInv m0.n E.size E.align a m
          (ps ++ lost.map Prod.fst)) m0.b.live m0.n.node ((m1.dropKey E k).dropVal E v)
          { t with nextResize := nr } (b0 :: nb :: bs) (A' ++ mid :: B) :=
        ⟨f7.len, f7.pos, f7.chains, f7.nodup, A.rep.core.homes, A.rep.core.dist, f7.fits, f7.inv,
          f7.start, f7.arr, f7.blNodup, f7.blNew, f7.out, f7.stat, f7.empty, f7.keep⟩
      refine ⟨_, _, f1, rfl, fun k' => ⟨_, hget k', ?_⟩⟩
      simp only [HTable.step, f8.get S.equiv S.hash, Exec.ok_bind]
    · obtain rfl : j = t.count := by omega
      obtain ⟨t1, m1, nb, cs1, f1, f2, f3, f4, f5, f6, f7, f8⟩ :=
        hc0.rehash S.law (fun _ => S.equiv) (bc := bc) (by omega)
      have hret := hc0.forget.rehashU_returns (bc := bc) (by omega) f1 (n := t.count)
        (by omega)
      rw [hcount, Nat.sub_self] at hret
      refine ⟨t1, (m1.dropKey E k).dropVal E v, ?_, f5, fun k' => ⟨_, hget k', ?_⟩⟩
      · rw [hU]
        simp only [HTable.insertImplU, p1, Exec.ok_bind]
        rw [hcount]
        simp only [hret, Exec.ok_bind, Option.map_none]
      · simp only [HTable.step, ((f2.dropKey S.law k).dropVal S.law v).get S.equiv S.hash,
          Exec.ok_bind]
        rw [show lookup E.eq (ents cs1) k' = lookup E.eq (ents cs) k' from
          lookup_perm S.equiv (f3.map Prod.snd) f2.distinct k']
  · rw [hU, A.rep.core.forget.insertImplU_returns S.law (by omega)]
    simp only [HTable.step, HTable.insert, e2, Exec.ok_bind] at hstep
    cases hi : t.insertImpl E b k v m with
    | error x => rw [hi] at hstep; simp at hstep
    | ok r =>
      rw [hi] at hstep
      simp only [Exec.ok_bind, Except.ok.injEq, Prod.mk.injEq] at hstep
      obtain ⟨rfl, rfl, rfl⟩ := hstep
      rfl

/-- The hypotheses of both parts: a map of five entries grows for a sixth, and does not for a
second. -/
example : HSetting (exampleHash (· % 100)) exampleHashMem ∧
    (∀ k, (exampleHash (· % 100)).eq k k = true) ∧ (do
    let (_, t, m) ← HTable.history (exampleHash (· % 100)) [.insert 1 10, .insert 2 20, .insert 3 30, .insert 4 40,
      .insert 5 50] exampleHashMem
    let (_, t2, _) ← t.step (exampleHash (· % 100)) (.insert 6 60) m
    let (o, t3, m3) ← t.stepU (exampleHash (· % 100)) (.insert 6 60) (1 + 1 + 2) m
    let (x, _, _) ← t.step (exampleHash (· % 100)) (.get 1) m
    let (y, _, _) ← t3.step (exampleHash (· % 100)) (.get 1) m3
    .ok ([t.bucketCount, t2.bucketCount, t3.count], [o, some x, some y])) =
    (.ok ([5, 11, 5], [none, some (.val (some 10)), some (.val none)]) :
      Exec (List Nat × List (Option (MapOut Nat Nat)))) ∧ (do
    let (_, t, m) ← HTable.history (exampleHash (· % 100)) [.insert 1 10] exampleHashMem
    let (_, t2, _) ← t.step (exampleHash (· % 100)) (.insert 2 20) m
    let (o, t3, m3) ← t.stepU (exampleHash (· % 100)) (.insert 2 20) 0 m
    .ok ([t.bucketCount, t2.bucketCount, t3.count], [o], m3.n.dropped)) =
    (.ok ([2, 2, 1], [none], [.inl 2, .inr 20]) :
      Exec (List Nat × List (Option (MapOut Nat Nat)) × List (Nat ⊕ Nat))) :=
  ⟨exampleHash_ok _ (by simp), fun k => by simp [exampleHash], by decide +kernel, by decide +kernel⟩

end Verif
