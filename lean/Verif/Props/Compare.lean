import Verif.Compare.Model
import Verif.Spec.Order
import Verif.VectorMap.Any
import Verif.Props.VectorMap
import Verif.Props.HashTable
import Verif.Props.Hash
import Verif.HashTable.Any

/-!
# Comparators, hashes and keys (C79 to C82)
-/

set_option autoImplicit false

namespace Verif
open Spec

variable {K V : Type}

/-! ## C79 -/

/-- C79.  For every totally ordered key type both comparators are strict weak orders whose ties
are exactly the equal keys, and each is the other with its arguments swapped. -/
theorem C79_comparators (O : KeyType K) (h : TotalOrd O) :
    (StrictWeak (lessCompare O) ∧ Consistent (lessCompare O) (equalTo O)) ∧
    (StrictWeak (greaterCompare O) ∧ Consistent (greaterCompare O) (equalTo O)) ∧
    ∀ a b, greaterCompare O a b = lessCompare O b a := by
  have hcases : ∀ a b, O.partialCmp a b = some .lt ∨ O.partialCmp a b = some .eq ∨
      O.partialCmp a b = some .gt := by
    intro a b
    have := h.total a b
    cases hc : O.partialCmp a b with
    | none => rw [hc] at this; cases this
    | some o => cases o <;> simp
  have hl : ∀ a b, lessCompare O a b = true ↔ O.partialCmp a b = some .lt := by
    intro a b; simp [lessCompare]
  have hg : ∀ a b, greaterCompare O a b = lessCompare O b a := by
    intro a b
    rw [Bool.eq_iff_iff, hl, h.dual b a]
    simp [greaterCompare]
  have hcons : Consistent (lessCompare O) (equalTo O) := by
    intro a b
    unfold equalTo
    rw [← Bool.not_eq_true, ← Bool.not_eq_true, hl, hl, h.dual b a, h.eq_iff]
    rcases hcases a b with e | e | e <;> rw [e] <;> simp
  have hirr : ∀ a, lessCompare O a a = false := by
    intro a
    rw [← Bool.not_eq_true, hl]
    intro e
    have := (h.dual a a).1 e
    rw [e] at this
    cases this
  have hsw : StrictWeak (lessCompare O) := by
    refine ⟨hirr, fun a b c h1 h2 => (hl a c).2 (h.lt_trans a b c ((hl _ _).1 h1) ((hl _ _).1 h2)),
      ?_⟩
    intro a b c h1 h2 h3 h4
    exact (hcons a c).1 (h.eq_trans a b c ((hcons a b).2 ⟨h1, h2⟩) ((hcons b c).2 ⟨h3, h4⟩))
  refine ⟨⟨hsw, hcons⟩, ⟨⟨?_, ?_, ?_⟩, ?_⟩, hg⟩
  · intro a; rw [hg]; exact hirr a
  · intro a b c h1 h2
    rw [hg] at *
    exact hsw.trans c b a h2 h1
  · intro a b c h1 h2 h3 h4
    rw [hg] at h1 h2 h3 h4
    rw [hg, hg]
    exact (hsw.incomp a b c h2 h1 h4 h3).symm
  · intro a b
    rw [hcons a b, hg, hg]
    exact And.comm

theorem increasing_perm_eq {lt : K → K → Bool} (hw : StrictWeak lt) {xs ys : List (K × V)}
    (hp : xs.Perm ys) (h1 : Increasing lt xs) (h2 : Increasing lt ys) : xs = ys := by
  refine List.Perm.eq_of_pairwise (le := fun p q : K × V => lt p.1 q.1 = true) ?_ h1 h2 hp
  intro a b _ _ hab hba
  rw [hw.asymm hab] at hba
  cases hba

/-- C79.  Exchanging `Less` for `Greater` in a `VectorMap` changes no result of any history of
calls, and reverses the iteration. -/
theorem C79_greater_reverses (O : KeyType K) (h : TotalOrd O) (R : RawAlloc (K × V)) (nd : Bool)
    (m0 : Mem (K × V)) (ops : List (MapOp K V)) :
    ∃ outs v m v' m' xs,
      VMap.run (defaultAllocator R) (lessCompare O) (equalTo O) nd ops Vec.new m0 =
        .ok (outs, v, m) ∧
      VMap.run (defaultAllocator R) (greaterCompare O) (equalTo O) nd ops Vec.new m0 =
        .ok (outs, v', m') ∧
      v.asSlice m = .ok xs ∧ v'.asSlice m' = .ok xs.reverse := by
  obtain ⟨⟨hw, hc⟩, ⟨hw', hc'⟩, hg⟩ := C79_comparators O h
  obtain ⟨v, m, xs, he, hs, hp⟩ :=
    C22_vector_map_refines_map R _ _ hw hc nd m0 ops
  obtain ⟨v', m', xs', he', hs', hp'⟩ :=
    C22_vector_map_refines_map R _ _ hw' hc' nd m0 ops
  refine ⟨_, v, m, v', m', xs, he, he', hs, ?_⟩
  obtain ⟨ys, h1, h2⟩ := C23_vector_map_sorted R _ _ hw hc nd m0 ops he
  rw [hs] at h1; cases h1
  obtain ⟨ys', h1', h2'⟩ := C23_vector_map_sorted R _ _ hw' hc' nd m0 ops he'
  rw [hs'] at h1'; cases h1'
  have hrev : Increasing (greaterCompare O) xs.reverse := by
    unfold Increasing
    rw [List.pairwise_reverse]
    exact h2.imp fun hab => by rw [hg]; exact hab
  rw [hs', increasing_perm_eq hw' ((hp'.trans hp.symm).trans (List.reverse_perm xs).symm) h2' hrev]

/-- Numbers with their usual order. -/
def natKey : KeyType Nat := ⟨fun a b => some (compare a b), fun a b => a == b⟩

theorem natKey_total : TotalOrd natKey := by
  refine ⟨fun a b => rfl, ?_, ?_, ?_, ?_, ?_⟩ <;> intro a b <;>
    simp [natKey, Nat.compare_eq_lt, Nat.compare_eq_gt] <;> omega

example : (do
    let (_, v, m) ← VMap.run (defaultAllocator RawAlloc.bump) (greaterCompare natKey)
      (equalTo natKey) true [.insert 2 'b', .insert 9 'z', .insert 5 'e', .remove 2, .insert 1 'a']
      Vec.new Mem.empty
    v.asSlice m) = (.ok [(9, 'z'), (5, 'e'), (1, 'a')] : Exec _) := by decide +kernel

/-! ## C80 -/

/-- C80 for `VectorMap`.  Whatever the comparator and `==` are, and even if they change from call
to call, every history of calls succeeds and keeps its books; the rest of memory is as before, and
dropping the map (`clear`) leaves memory as it was before the map. -/
theorem C80_vector_map_any_comparator (R : RawAlloc (K × V)) (nd : Bool) (m0 : Mem (K × V))
    (ops : List ((K → K → Bool) × (K → K → Bool) × MapOp K V)) :
    ∃ outs v m xs d, VMap.runAny (defaultAllocator R) nd ops Vec.new m0 = .ok (outs, v, m) ∧
      v.asSlice m = .ok xs ∧ HonestRun (ops.map fun o => o.2.2) outs [] xs d ∧
      (∀ b blk, m0.live b = some blk → m.live b = some blk) ∧
      ∃ m', v.clear (defaultAllocator R) nd m = .ok (Vec.new, m') ∧ m'.live = m0.live := by
  obtain ⟨os, v, m, xs, d, he, ⟨cap, hi⟩, hh⟩ := MInv.run_any R nd ops ⟨0, VInv.new defaultFits m0⟩
  refine ⟨os, v, m, xs, d, he, hi.slice, hh, ?_, ?_⟩
  · intro b blk hb
    rcases hi.default_rep with h | ⟨b', blk', h⟩
    · rw [h.live]; exact hb
    · rw [h.live, Function.update_of_ne, hb]
      rintro rfl
      rw [h.fresh] at hb
      cases hb
  · obtain ⟨m', he, _, hw, _, _, _⟩ := hi.clear (defaultAllocator_lawful R) nd
    exact ⟨m', he, funext fun p => hw p not_false⟩

/-- A comparator that always says yes, an equality that is never true: entries pile up, nothing
breaks. -/
example : (do
    let (o, v, m) ← VMap.runAny (defaultAllocator RawAlloc.bump) true
      [(fun _ _ => true, fun _ _ => false, .insert 1 'a'),
       (fun _ _ => true, fun _ _ => false, .insert 1 'b'),
       (fun _ _ => false, fun _ _ => true, .insert 7 'c'),
       (fun _ _ => false, fun _ _ => false, .get 1), (fun a b => a < b, fun _ _ => true, .remove 3)]
      Vec.new Mem.empty
    let s ← v.asSlice m
    .ok (o, s)) =
    (.ok ([.val none, .val none, .val (some 'a'), .val none, .val none], [(1, 'c'), (1, 'b')]) :
      Exec (List (MapOut Nat Char) × List (Nat × Char))) := by decide +kernel

/-- Where a hash map may be used, if nothing is asked of its keys. -/
structure HPlace (E : HEnv K V Unit) (m0 : HMem K V) : Prop where
  /-- nodes come from the default allocator, whatever its placement of blocks -/
  alloc : ∃ P, E.A = defaultNAlloc P none true
  size : 0 < E.size
  wf : m0.n.WF
  /-- the static array of one empty bucket and the sentinel -/
  static : ArrIs m0.b E.stat [0, 2 ^ 64 - 1]

/-- C80 for hash maps.  Whatever the hash function and `==` are, and even if they change from call
to call, every history of calls (up to the number of entries at which the growth policy gives up,
C53) succeeds, keeps its books and drops what it has to drop; the rest of memory is as before, and
dropping the map frees all its nodes and drops all its entries, once. -/
theorem C80_hash_map_any_keys (E : HEnv K V Unit) (m0 : HMem K V) (S : HPlace E m0)
    (ops : List ((K → Nat) × (K → K → Bool) × MapOp K V)) (hlen : ops.length ≤ 2557710464) :
    ∃ outs t m cs d, HTable.runAny E ops (HTable.newIn E ()) m0 = .ok (outs, t, m) ∧
      t.dump m = .ok cs ∧ t.count = cs.flatten.length ∧
      HonestRun (ops.map fun o => o.2.2) outs [] (cs.flatten.map Prod.snd) d ∧
      m.n.dropped.Perm (m0.n.dropped ++ d.filter fun x =>
        match x with | .inl _ => E.ndK | .inr _ => E.ndV) ∧
      (∀ b, m0.b.live b ≠ none → m.b.live b = m0.b.live b) ∧
      (∀ q, m0.n.node q ≠ none → m.n.node q = m0.n.node q) ∧
      ∃ a m', t.drop E m = .ok (a, m') ∧ m'.n.reg = m0.n.reg ∧ m'.n.node = m0.n.node ∧
        m'.n.dropped.Perm (m.n.dropped ++ (contents (cs.flatten.map Prod.snd)).filter fun x =>
          match x with | .inl _ => E.ndK | .inr _ => E.ndV) := by
  have L : HLaw E (DefInv m0.n E.size E.align) := by
    obtain ⟨P, hP⟩ := S.alloc
    unfold HLaw
    rw [hP]
    exact defaultNAlloc_law P none true S.size (by simp) m0.n
  have h0 : HRep False E (DefInv m0.n E.size E.align) m0.b.live m0.n.node m0 (HTable.newIn E ()) 0 []
      [[]] := HRep.init S.static (DefInv.init S.wf E.size E.align)
  have hneeds : (fun x : K ⊕ V => match x with | .inl _ => E.ndK | .inr _ => E.ndV) = E.needs := by
    funext x; cases x <;> rfl
  obtain ⟨os, t, m, pk, bl, cs, d, e1, e2, e3, e4⟩ := h0.run_any L ops (by
    rw [show (HTable.newIn E ()).count = 0 from rfl]
    unfold maxEntries
    omega)
  obtain ⟨a, m', f1, f2, f3⟩ := e2.freeBuckets L
  have hinv := f2.inv
  have hnil : addrs (List.replicate t.bucketCount ([] : List (Nat × K × V))) = [] := by
    simp [addrs]
  rw [hnil] at hinv
  rw [hneeds]
  refine ⟨os, t, m, cs, d, e1, e2.core.dump, e2.count, e3, e4, ?_, ?_, a, m',
    by simp [HTable.drop, f1], hinv.done, ?_, f3⟩
  · exact fun b hb => e2.core.out b fun hm => hb (e2.core.blNew b hm).1
  · exact fun q hq => (e2.core.keep q hq).2
  · funext q
    by_cases hq : m0.n.node q = none
    · rw [hq]; exact (hinv.node q (by simp)).2 hq
    · exact (f2.keep q hq).2

/-- A hash that changes, an equality that is never, always or sometimes true: a key is in the map
three times, is removed under another name and is not found under its own; nothing breaks. -/
example : HPlace (exampleHash id) exampleHashMem ∧ (do
    let (o, t, m) ← HTable.runAny (exampleHash id)
      [(id, fun _ _ => false, .insert 1 10), (id, fun _ _ => false, .insert 1 11),
       (fun _ => 8, fun a b => a == b, .get 1), (fun _ => 8, fun a b => a == b, .insert 1 12),
       (id, fun _ _ => true, .remove 23), (id, fun a b => a == b, .get 1),
       (id, fun _ _ => true, .get 3)]
      (HTable.newIn (exampleHash id) ()) exampleHashMem
    let cs ← t.dump m
    .ok (o, cs.flatten.map Prod.snd)) =
    (.ok ([.val none, .val none, .val none, .val none, .val (some 12), .val none, .val (some 10)],
      [(1, 10), (1, 11)]) :
      Exec (List (MapOut Nat Nat) × List (Nat × Nat))) := by
  have := exampleHash_ok (fun _ => 0) (by simp)
  exact ⟨⟨this.alloc, this.size, this.wf, this.static⟩, by decide +kernel⟩

/-! ## C81 -/

/-- A number that is not NaN. -/
def Spec.isNum (e m : Nat) (a : BitVec (1 + e + m)) : Prop := FVal.decode e m a ≠ .nan

/-- `f32` or `f64` keys other than NaN. -/
def numKey (e m : Nat) : KeyType {a : BitVec (1 + e + m) // isNum e m a} where
  partialCmp a b := (floatKey e m).partialCmp a.1 b.1
  eq a b := (floatKey e m).eq a.1 b.1

/-- C81.  Floating-point keys other than NaN are totally ordered, so by C22, C23 and C79 a
`VectorMap` of such keys works, with `Less` and with `Greater`.  Missing for the full property:
NaN, see below. -/
theorem C81_number_keys_partial (e m : Nat) : TotalOrd (numKey e m) := by
  have key : ∀ a : {a : BitVec (1 + e + m) // isNum e m a},
      (∃ n, FVal.decode e m a.1 = .inf n) ∨ ∃ v, FVal.decode e m a.1 = .fin v := by
    intro ⟨a, ha⟩
    unfold isNum at ha
    cases hd : FVal.decode e m a with
    | nan => exact absurd hd ha
    | inf n => exact .inl ⟨n, rfl⟩
    | fin v => exact .inr ⟨v, rfl⟩
  refine ⟨?_, ?_, ?_, ?_, ?_, ?_⟩
  · intro a b
    rcases key a with ⟨x, hx⟩ | ⟨x, hx⟩ <;> rcases key b with ⟨y, hy⟩ | ⟨y, hy⟩ <;>
      simp [numKey, floatKey, hx, hy, FVal.partialCmp]
  · intro a b
    rcases key a with ⟨x, hx⟩ | ⟨x, hx⟩ <;> rcases key b with ⟨y, hy⟩ | ⟨y, hy⟩ <;>
      simp [numKey, floatKey, hx, hy, FVal.partialCmp, FVal.eq]
    · cases x <;> cases y <;> simp
    · cases x <;> simp
    · cases y <;> simp
  · intro a b
    rcases key a with ⟨x, hx⟩ | ⟨x, hx⟩ <;> rcases key b with ⟨y, hy⟩ | ⟨y, hy⟩ <;>
      simp [numKey, floatKey, hx, hy, FVal.partialCmp]
    · cases x <;> cases y <;> simp
    · rw [Int.compare_eq_lt, Int.compare_eq_gt]
  · intro a b c
    rcases key a with ⟨x, hx⟩ | ⟨x, hx⟩ <;> rcases key b with ⟨y, hy⟩ | ⟨y, hy⟩ <;>
      rcases key c with ⟨z, hz⟩ | ⟨z, hz⟩ <;>
      simp [numKey, floatKey, hx, hy, hz, FVal.partialCmp]
    · cases x <;> cases y <;> cases z <;> simp
    · cases x <;> cases y <;> simp
    · cases x <;> cases z <;> simp
    · exact fun h _ => h
    · cases y <;> cases z <;> simp
    · cases y <;> simp
    · rw [Int.compare_eq_lt, Int.compare_eq_lt, Int.compare_eq_lt]; omega
  · intro a b
    rcases key a with ⟨x, hx⟩ | ⟨x, hx⟩ <;> rcases key b with ⟨y, hy⟩ | ⟨y, hy⟩ <;>
      simp [numKey, floatKey, hx, hy, FVal.eq]
    · exact Eq.symm
    · exact Eq.symm
  · intro a b c
    rcases key a with ⟨x, hx⟩ | ⟨x, hx⟩ <;> rcases key b with ⟨y, hy⟩ | ⟨y, hy⟩ <;>
      rcases key c with ⟨z, hz⟩ | ⟨z, hz⟩ <;>
      simp [numKey, floatKey, hx, hy, hz, FVal.eq]
    · exact Eq.trans
    · exact Eq.trans

theorem floatKey_nan_ne (e m : Nat) (a b : BitVec (1 + e + m)) (h : ¬ isNum e m b) :
    equalTo (floatKey e m) a b = false := by
  have h : FVal.decode e m b = .nan := Classical.not_not.1 h
  simp only [equalTo, floatKey, h]
  cases FVal.decode e m a <;> rfl

/-- C81, what is true.  With `Less` and with `Greater`, a history on a vector map with
floating-point keys that stores no NaN returns what it returns on the finite map: every key that
was inserted is found, NaN is not found, and the keys are in order.  Missing: histories that store
NaN, see below. -/
theorem C81_number_histories_partial (e m : Nat) (R : RawAlloc (BitVec (1 + e + m) × V)) (nd : Bool)
    (m0 : Mem (BitVec (1 + e + m) × V)) (ops : List (MapOp (BitVec (1 + e + m)) V))
    (hops : ∀ op ∈ ops, ∀ k, op.stores = some k → isNum e m k)
    (lt : BitVec (1 + e + m) → BitVec (1 + e + m) → Bool)
    (hlt : lt = lessCompare (floatKey e m) ∨ lt = greaterCompare (floatKey e m)) :
    ∃ v m1 xs, VMap.run (defaultAllocator R) lt (equalTo (floatKey e m)) nd ops Vec.new m0 =
        .ok ((MapOp.run (equalTo (floatKey e m)) ops []).1, v, m1) ∧
      v.asSlice m1 = .ok xs ∧ xs.Perm (MapOp.run (equalTo (floatKey e m)) ops []).2 ∧
      Increasing lt xs := by
  obtain ⟨⟨h1, h2⟩, ⟨h3, h4⟩, _⟩ := C79_comparators (numKey e m) (C81_number_keys_partial e m)
  refine C22_vector_map_on_good_keys R lt _ (isNum e m) ?_ ?_
    (fun a b _ hb => floatKey_nan_ne e m a b hb) nd m0 ops hops
  · rcases hlt with rfl | rfl
    · exact ⟨fun a ha => h1.irrefl ⟨a, ha⟩,
        fun a b c ha hb hc => h1.trans ⟨a, ha⟩ ⟨b, hb⟩ ⟨c, hc⟩,
        fun a b c ha hb hc => h1.incomp ⟨a, ha⟩ ⟨b, hb⟩ ⟨c, hc⟩⟩
    · exact ⟨fun a ha => h3.irrefl ⟨a, ha⟩,
        fun a b c ha hb hc => h3.trans ⟨a, ha⟩ ⟨b, hb⟩ ⟨c, hc⟩,
        fun a b c ha hb hc => h3.incomp ⟨a, ha⟩ ⟨b, hb⟩ ⟨c, hc⟩⟩
  · rcases hlt with rfl | rfl
    · exact fun a b ha hb => h2 ⟨a, ha⟩ ⟨b, hb⟩
    · exact fun a b ha hb => h4 ⟨a, ha⟩ ⟨b, hb⟩

/-- Non-vacuity of `C81_number_histories_partial`: `f32` keys 2.0, -1.0, 0.0 and infinity; -0.0
finds the entry of 0.0, NaN finds nothing. -/
example : (∀ k ∈ [0x40000000#32, 0xBF800000#32, 0#32, 0x7F800000#32], isNum 8 23 k) ∧ (do
    let (o, v, m) ← VMap.run (defaultAllocator RawAlloc.bump) (lessCompare (floatKey 8 23))
      (equalTo (floatKey 8 23)) false
      [.insert 0x40000000#32 2, .insert 0xBF800000#32 1, .insert 0#32 0, .insert 0x7F800000#32 9,
       .get 0x80000000#32, .get 0x7FC00000#32, .remove 0x40000000#32]
      Vec.new (Mem.empty : Mem (BitVec 32 × Nat))
    let xs ← v.asSlice m
    .ok (o, xs)) = (.ok ([.val none, .val none, .val none, .val none, .val (some 0), .val none,
      .val (some 2)], [(0xBF800000#32, 1), (0#32, 0), (0x7F800000#32, 9)]) :
    Exec (List (MapOut (BitVec 32) Nat) × List (BitVec 32 × Nat))) := by
  refine ⟨?_, by decide +kernel⟩
  intro k hk
  simp only [List.mem_cons, List.not_mem_nil, or_false] at hk
  unfold isNum
  rcases hk with rfl | rfl | rfl | rfl <;> decide +kernel

/-- A history keeps the vector well formed, whatever the comparator and `==`. -/
theorem VMap.run_inv {lt eq : K → K → Bool} (R : RawAlloc (K × V)) (nd : Bool) {m0 m1 : Mem (K × V)}
    {ops : List (MapOp K V)} {outs : List (MapOut K V)} {v : Vec} {xs : List (K × V)}
    (hrun : VMap.run (defaultAllocator R) lt eq nd ops Vec.new m0 = .ok (outs, v, m1))
    (hs : v.asSlice m1 = .ok xs) : MInv m0.live m1 v xs := by
  have hany : ∀ (os : List (MapOp K V)) (u : Vec) (mm : Mem _),
      VMap.run (defaultAllocator R) lt eq nd os u mm = VMap.runAny (defaultAllocator R) nd
          (os.map fun o => (lt, eq, o)) u mm := by
    intro os
    induction os with
    | nil => intro u mm; rfl
    | cons o os ih => intro u mm; simp [VMap.run, VMap.runAny, ih]
  obtain ⟨os, v', m', xs', d, he, hi, _⟩ := MInv.run_any R nd
    (ops.map fun o => (lt, eq, o)) ⟨0, VInv.new defaultFits m0⟩
  rw [hany, he] at hrun
  cases hrun
  obtain ⟨cap, h⟩ := hi
  rw [h.slice] at hs
  cases hs
  exact ⟨cap, h⟩

/-- C81 is false for NaN: whatever was inserted before, inserting a NaN adds a new entry every time
and looking it up finds nothing. -/
theorem C81_nan_never_found (e m : Nat) (R : RawAlloc (BitVec (1 + e + m) × V)) (nd : Bool)
    (m0 : Mem (BitVec (1 + e + m) × V)) (ops : List (MapOp (BitVec (1 + e + m)) V))
    {outs : List (MapOut (BitVec (1 + e + m)) V)} {v : Vec} {m1 : Mem (BitVec (1 + e + m) × V)}
    {xs : List (BitVec (1 + e + m) × V)}
    (hrun : VMap.run (defaultAllocator R) (lessCompare (floatKey e m)) (equalTo (floatKey e m)) nd
      ops Vec.new m0 = .ok (outs, v, m1)) (hs : v.asSlice m1 = .ok xs)
    (k : BitVec (1 + e + m)) (hk : FVal.decode e m k = .nan) (x : V) :
    ∃ v' m' ys, VMap.run (defaultAllocator R) (lessCompare (floatKey e m)) (equalTo (floatKey e m))
        nd [.insert k x, .get k] v m1 = .ok ([.val none, .val none], v', m') ∧
      v'.asSlice m' = .ok ys ∧ ys.Perm ((k, x) :: xs) := by
  have hi := VMap.run_inv R nd hrun hs
  have hne : ∀ a, equalTo (floatKey e m) a k = false := by
    intro a
    unfold equalTo floatKey
    simp only [hk]
    cases FVal.decode e m a <;> rfl
  obtain ⟨r, hr, hf⟩ := hi.find_any (lessCompare (floatKey e m)) (equalTo (floatKey e m)) k
  have hf : VMap.find (lessCompare (floatKey e m)) (equalTo (floatKey e m)) k v m1 =
      .ok (none, r) := by
    rcases hf with hf | ⟨p, _, hp, _⟩
    · exact hf
    · rw [hne] at hp; cases hp
  obtain ⟨v2, m2, he2, hi2⟩ := hi.insertAt (R := R) hr (k, x)
  obtain ⟨r', hr', hf'⟩ := hi2.find_any (lessCompare (floatKey e m)) (equalTo (floatKey e m)) k
  have hf' : VMap.find (lessCompare (floatKey e m)) (equalTo (floatKey e m)) k v2 m2 =
      .ok (none, r') := by
    rcases hf' with hf | ⟨p, _, hp, _⟩
    · exact hf
    · rw [hne] at hp; cases hp
  obtain ⟨cap, hi2⟩ := hi2
  exact ⟨v2, m2, _, by simp [VMap.run, VMap.step, VMap.insert, VMap.get, hf, hf', he2], hi2.slice,
    take_cons_drop_perm ..⟩

/-- A search in which the front half is not smaller ends at the front. -/
theorem lowerLoop_front {α : Type} {xs : List α} {less : α → Bool} {c : Nat}
    (hc : ∀ i x, i < c → xs[i]? = some x → less x = false) :
    ∀ fuel size : Nat, size ≤ fuel + 1 → size ≤ xs.length → size / 2 < c →
      lowerLoop xs less (fuel + 1) size 0 = .ok 0 := by
  intro fuel
  induction fuel with
  | zero =>
    intro size h1 h2 h3
    have : ¬ 1 < size := by omega
    simp [lowerLoop, this]
  | succ fuel ih =>
    intro size h1 h2 h3
    rw [lowerLoop]
    by_cases h : 1 < size
    · have hlt : size / 2 < xs.length := by omega
      obtain ⟨x, hx⟩ : ∃ x, xs[size / 2]? = some x := ⟨xs[size / 2], by simp [hlt]⟩
      simp only [h, if_true, Nat.zero_add, sliceAt, hx, Exec.ok_bind, hc _ x h3 hx,
        Bool.false_eq_true, if_false]
      exact ih (size - size / 2) (by omega) (by omega) (by omega)
    · simp [h]

theorem lowerBoundBy_front {α : Type} {xs : List α} {less : α → Bool} {c : Nat}
    (hc : ∀ i x, i < c → xs[i]? = some x → less x = false) (h : xs.length / 2 < c) :
    lowerBoundBy xs less = .ok 0 := by
  unfold lowerBoundBy
  by_cases h0 : xs.length = 0
  · simp [h0]
  · obtain ⟨x, hx⟩ : ∃ x, xs[0]? = some x := ⟨xs[0], by simp⟩
    have := lowerLoop_front hc (xs.length - 1) xs.length (by omega) (Nat.le_refl _) h
    rw [show xs.length - 1 + 1 = xs.length by omega] at this
    simp only [if_neg h0, this, Exec.ok_bind, sliceAt, hx, hc 0 x (by omega) hx,
      Bool.false_eq_true, if_false]

/-- C81 is false for NaN: NaN keys also hide all other keys.  Whatever was inserted before, once
there are more NaN than entries before no key is found any more, although all the entries are
still there. -/
theorem C81_nan_hides_keys (e m : Nat) (R : RawAlloc (BitVec (1 + e + m) × V)) (nd : Bool)
    (m0 : Mem (BitVec (1 + e + m) × V)) (ops : List (MapOp (BitVec (1 + e + m)) V))
    {outs : List (MapOut (BitVec (1 + e + m)) V)} {v : Vec} {m1 : Mem (BitVec (1 + e + m) × V)}
    {xs : List (BitVec (1 + e + m) × V)}
    (hrun : VMap.run (defaultAllocator R) (lessCompare (floatKey e m)) (equalTo (floatKey e m)) nd
      ops Vec.new m0 = .ok (outs, v, m1)) (hs : v.asSlice m1 = .ok xs)
    (nans : List (BitVec (1 + e + m) × V)) (hnan : ∀ p ∈ nans, FVal.decode e m p.1 = .nan)
    (hmore : xs.length < nans.length) :
    ∃ v' m', VMap.run (defaultAllocator R) (lessCompare (floatKey e m)) (equalTo (floatKey e m))
        nd (nans.map fun p => .insert p.1 p.2) v m1 =
          .ok (List.replicate nans.length (.val none), v', m') ∧
      v'.asSlice m' = .ok (nans.reverse ++ xs) ∧
      ∀ k, VMap.run (defaultAllocator R) (lessCompare (floatKey e m)) (equalTo (floatKey e m))
        nd [.get k] v' m' = .ok ([.val none], v', m') := by
  have hlt : ∀ a b, FVal.decode e m a = .nan ∨ FVal.decode e m b = .nan →
      lessCompare (floatKey e m) a b = false := by
    intro a b h
    rcases h with h | h
    · simp [lessCompare, floatKey, h, FVal.partialCmp]
    · simp only [lessCompare, floatKey, h]
      cases FVal.decode e m a <;> rfl
  have hne : ∀ a b, FVal.decode e m a = .nan ∨ FVal.decode e m b = .nan →
      equalTo (floatKey e m) a b = false := by
    intro a b h
    rcases h with h | h
    · simp [equalTo, floatKey, h, FVal.eq]
    · simp only [equalTo, floatKey, h]
      cases FVal.decode e m a <;> rfl
  have hi := VMap.run_inv R nd hrun hs
  clear hrun hs
  have hins : ∀ (ns : List (BitVec (1 + e + m) × V)) (u : Vec) (mm : Mem _) (ys : List _),
      (∀ p ∈ ns, FVal.decode e m p.1 = .nan) → MInv m0.live mm u ys →
      ∃ v' m', VMap.run (defaultAllocator R) (lessCompare (floatKey e m))
        (equalTo (floatKey e m)) nd (ns.map fun p => .insert p.1 p.2) u mm =
          .ok (List.replicate ns.length (.val none), v', m') ∧
        MInv m0.live m' v' (ns.reverse ++ ys) := by
    intro ns
    induction ns with
    | nil => intro u mm ys _ h; exact ⟨u, mm, rfl, h⟩
    | cons p ns ih =>
      intro u mm ys hp h
      have hpn := hp p (by simp)
      have hf : VMap.find (lessCompare (floatKey e m)) (equalTo (floatKey e m)) p.1 u mm =
          .ok (none, 0) := by
        obtain ⟨cap, h⟩ := h
        simp only [VMap.find, VMap.lowerBound, h.slice, Exec.ok_bind, h.len,
          lowerBoundBy_front (xs := ys) (c := ys.length + 1) (less := fun q : _ × V =>
            lessCompare (floatKey e m) q.1 p.1) (fun i x _ _ => hlt _ _ (.inr hpn)) (by omega)]
        by_cases h0 : 0 < ys.length
        · obtain ⟨x, hx⟩ : ∃ x, ys[0]? = some x := ⟨ys[0], by simp [h0]⟩
          simp [h0, MInv.index ⟨cap, h⟩ hx, hne _ _ (.inr hpn)]
        · simp [h0]
      obtain ⟨v2, m2, he2, hi2⟩ := h.insertAt (R := R) (Nat.zero_le _) p
      obtain ⟨v3, m3, he3, hi3⟩ := ih v2 m2 _ (fun q hq => hp q (by simp [hq])) hi2
      refine ⟨v3, m3, ?_, by simpa using hi3⟩
      simp [VMap.run, VMap.step, VMap.insert, hf, he2, he3, List.replicate_succ]
  obtain ⟨v', m', he, hi'⟩ := hins nans v m1 xs hnan hi
  refine ⟨v', m', he, hi'.elim fun cap h => h.slice, fun k => ?_⟩
  have hf : VMap.find (lessCompare (floatKey e m)) (equalTo (floatKey e m)) k v' m' =
      .ok (none, 0) := by
    have hfront : ∀ i x, i < nans.length → (nans.reverse ++ xs)[i]? = some x →
        FVal.decode e m x.1 = .nan := by
      intro i x hi hx
      rw [List.getElem?_append_left (by simpa using hi)] at hx
      exact hnan x (by simpa using List.mem_of_getElem? hx)
    obtain ⟨cap, h⟩ := hi'
    simp only [VMap.find, VMap.lowerBound, h.slice, Exec.ok_bind, h.len,
      lowerBoundBy_front (xs := nans.reverse ++ xs) (c := nans.length) (less := fun q : _ × V =>
        lessCompare (floatKey e m) q.1 k) (fun i x hi hx => hlt _ _ (.inl (hfront i x hi hx)))
        (by simp only [List.length_append, List.length_reverse]; omega)]
    have h0 : 0 < (nans.reverse ++ xs).length := by simp; omega
    obtain ⟨x, hx⟩ : ∃ x, (nans.reverse ++ xs)[0]? = some x := ⟨_, List.getElem?_eq_getElem h0⟩
    simp only [h0, if_true, MInv.index ⟨cap, h⟩ hx, Exec.ok_bind,
      hne _ _ (.inl (hfront 0 x (by omega) hx))]
    rfl
  simp [VMap.run, VMap.step, VMap.get, hf]

/-- 1.0, a few NaN (`f32`), then 1.0 is gone; inserting it again makes a second entry for it. -/
example :
    (do let (o, v, m) ← VMap.run (defaultAllocator RawAlloc.bump) (lessCompare (floatKey 8 23))
          (equalTo (floatKey 8 23)) true
          [.insert 0x3F800000 'a', .insert 0x7FC00000 'b', .insert 0x7FC00000 'c',
           .insert 0x7FC00000 'd', .get 0x3F800000, .insert 0x3F800000 'e', .len]
          Vec.new Mem.empty
        let s ← v.asSlice m
        .ok (o, s.map Prod.snd)) =
      (.ok ([.val none, .val none, .val none, .val none, .val none, .val none, .nat 5],
        ['e', 'd', 'c', 'b', 'a']) :
        Exec (List (MapOut (BitVec (1 + 8 + 23)) Char) × List Char)) := by decide +kernel

/-! ## C82 -/

theorem lookup_step_untouched {eq : K → K → Bool} (he : PartialEquiv eq) {s : List (K × V)}
    (hd : Distinct eq s) {k : K} {op : MapOp K V} (ht : op.touches eq k = false) :
    lookup eq (op.step eq s).2 k = lookup eq s k := by
  cases op with
  | insert k' v =>
    rw [lookup_step_insert he hd, show eq k' k = false from ht]; rfl
  | remove k' =>
    rw [lookup_remove he, show eq k' k = false from ht]; rfl
  | removeEntry k' =>
    rw [show (MapOp.step eq (.removeEntry k') s).2 = (MapOp.step eq (.remove k') s).2 from rfl,
      lookup_remove he, show eq k' k = false from ht]; rfl
  | modify k' f =>
    simp only [MapOp.step]
    cases h : lookup eq s k' with
    | none => rfl
    | some p => simp only [lookup_setVal he hd h, show eq k' k = false from ht]; rfl
  | entry k' f v =>
    rw [lookup_step_entry he hd, show eq k' k = false from ht]; rfl
  | entryKey k' =>
    simp only [MapOp.step]
    cases h : lookup eq s k' <;> rfl
  | get _ => rfl
  | contains _ => rfl
  | len => rfl
  | isEmpty => rfl
  | clear => cases ht

theorem lookup_run_untouched {eq : K → K → Bool} (he : PartialEquiv eq) {k : K} :
    ∀ (ops : List (MapOp K V)) {s : List (K × V)}, Distinct eq s →
    (∀ op ∈ ops, op.touches eq k = false) → lookup eq (MapOp.run eq ops s).2 k = lookup eq s k := by
  intro ops
  induction ops with
  | nil => intros; rfl
  | cons op ops ih =>
    intro s hd h
    simp only [MapOp.run]
    rw [ih (hd.step he op) fun o ho => h o (by simp [ho]),
      lookup_step_untouched he hd (h op (by simp))]

theorem run_append (eq : K → K → Bool) : ∀ (l l' : List (MapOp K V)) (s : List (K × V)),
    (MapOp.run eq (l ++ l') s).2 = (MapOp.run eq l' (MapOp.run eq l s).2).2 := by
  intro l
  induction l with
  | nil => intros; rfl
  | cons a l ih => intro l' s; simp only [List.cons_append, MapOp.run, ih]

theorem Distinct.run {eq : K → K → Bool} (he : PartialEquiv eq) : ∀ (ops : List (MapOp K V))
    {s : List (K × V)}, Distinct eq s → Distinct eq (MapOp.run eq ops s).2 := by
  intro ops
  induction ops with
  | nil => intro s h; exact h
  | cons op ops ih => intro s h; exact ih (h.step he op)

/-- C82.  Whatever was done before, a value inserted into a hash map is found under every equal key
as long as no call names an equal key or clears the map.  Equality need only be symmetric and
transitive: other keys in the map may be unequal to themselves. -/
theorem C82_hash_binding_persists {E : HEnv K V Unit} {m0 : HMem K V} (S : HSetting E m0)
    (ops more : List (MapOp K V)) (k k' : K) (v : V) (hk : E.eq k k' = true)
    (hpk : MapOp.peak E.eq (ops ++ .insert k v :: more) [] ≤ 2557710464)
    (hno : ∀ op ∈ more, op.touches E.eq k = false) :
    ∃ outs t m k0, HTable.history E (ops ++ .insert k v :: more) m0 = .ok (outs, t, m) ∧
      t.get E k' m = .ok (some (k0, v)) ∧ E.eq k0 k' = true := by
  obtain ⟨t, m, bl, cs, e1, A⟩ := S.run _ hpk
  have hd : Distinct E.eq (MapOp.run E.eq ops ([] : List (K × V))).2 :=
    Distinct.run S.equiv ops List.Pairwise.nil
  have hno' : ∀ op ∈ more, op.touches E.eq k' = false := by
    intro op ho
    have := hno op ho
    have key : ∀ a, E.eq a k = false → E.eq a k' = false := by
      intro a ha
      cases h : E.eq a k' with
      | false => rfl
      | true => rw [S.equiv.trans _ _ _ h (S.equiv.symm _ _ hk)] at ha; cases ha
    cases op <;> first | exact key _ this | exact this
  have hl : lookup E.eq (MapOp.run E.eq (ops ++ .insert k v :: more) []).2 k' =
      some (((lookup E.eq (MapOp.run E.eq ops []).2 k).map Prod.fst).getD k, v) := by
    rw [run_append]
    simp only [MapOp.run]
    rw [lookup_run_untouched S.equiv more (hd.step S.equiv _) hno', lookup_step_insert S.equiv hd, hk]
    rfl
  refine ⟨_, t, m, ((lookup E.eq (MapOp.run E.eq ops []).2 k).map Prod.fst).getD k, e1, ?_, ?_⟩
  · rw [A.rep.core.get S.equiv S.hash, A.look S.equiv, hl]
  · exact ((lookup_some S.equiv (Distinct.run S.equiv _ List.Pairwise.nil)).1 hl).2

/-- C82.  Floating-point keys with the default hash meet the requirements of a hash map, NaN
included; so C45 to C50 and `C82_hash_binding_persists` hold for them, and every key but NaN is
found. -/
theorem C82_float_keys (e m : Nat) (E : HEnv (BitVec (1 + e + m)) V Unit)
    (m0 : HMem (BitVec (1 + e + m)) V) (S : HPlace E m0) (hhash : E.hash = hashFloat e m)
    (heq : E.eq = (floatKey e m).eq) :
    HSetting E m0 ∧ ∀ k, E.eq k k = true ↔ FVal.decode e m k ≠ .nan := by
  refine ⟨⟨S.alloc, S.size, ⟨?_, ?_⟩, ?_, S.wf, S.static⟩, ?_⟩
  · intro a b
    rw [heq]
    simp only [floatKey]
    cases FVal.decode e m a <;> cases FVal.decode e m b <;> simp [FVal.eq] <;> exact Eq.symm
  · intro a b c
    rw [heq]
    simp only [floatKey]
    cases FVal.decode e m a <;> cases FVal.decode e m b <;> cases FVal.decode e m c <;>
      simp [FVal.eq] <;> exact Eq.trans
  · intro a b h
    rw [hhash]
    rw [heq] at h
    exact C77_float_hash_respects_eq e m a b h
  · intro k
    rw [heq]
    simp only [floatKey]
    cases FVal.decode e m k <;> simp [FVal.eq]

/-- `f32` keys. -/
def exampleFloat : HEnv (BitVec (1 + 8 + 23)) Nat Unit where
  hash := hashFloat 8 23
  eq := (floatKey 8 23).eq
  size := 24
  align := 8
  ndK := false
  ndV := false
  A := defaultNAlloc Placer.bump none true
  R := RawAlloc.bump
  stat := 0

/-- 1.0, then NaN three times, then 1.0 and -0.0/0.0: the numbers are found. -/
example : (do
    let (o, t, m) ← HTable.run exampleFloat
      [.insert 0x3F800000 1, .insert 0x7FC00000 2, .insert 0x7FC00000 3, .insert 0x7FC00000 4,
       .get 0x3F800000, .insert 0x80000000 5, .get 0, .get 0x7FC00000, .len]
      (HTable.newIn exampleFloat ())
      ⟨NMem.empty, Mem.empty.setBlock 0
        (some ⟨2, .inline, fun i => if i = 0 then some 0 else some (2 ^ 64 - 1)⟩)⟩
    .ok o) =
    (.ok [.val none, .val none, .val none, .val none, .val (some 1), .val none, .val (some 5),
      .val none, .nat 5] : Exec (List (MapOut (BitVec (1 + 8 + 23)) Nat))) := by decide +kernel

end Verif
