import Verif.Handed.Machine
import Verif.Props.Handed
import Verif.Props.ListCounter
import Verif.Props.MachineFixedList

/-!
# C162: deques, lists and hash maps that C++ code built, on a 64-bit machine

The size of a deque's pointer array and the counts of lists and hash maps are `u32`s, which panic
(`.debug`) or wrap around (`.release`). A deque made by Rust code has a pointer array of `10·2^k − 2`
slots (C111); one made by C++ code may have any number.
-/

set_option autoImplicit false

namespace Verif
open Spec

variable {α K V : Type}

/-- C162, the part that holds of deques. As long as the deque never has more than `(2^31 − 3)·S`
elements, `S` being the size of a subarray, every history returns what it returns on a mathematical
sequence and no call panics, whatever the size of the pointer array; dropping the deque gives back the
pointer array and every subarray but one (C32), and every element has been handed out or dropped
once. -/
theorem C162_handed_deque_partial (B : Build) (E : DEnv α) {m : DMem α} {d : Deque} {pb lo bo : Nat}
    {bl : List Nat} {xs : List α} (h : HandedDeque E.S m d pb lo bo bl xs) (hsz : d.size < 2 ^ 32)
    (ops : List (DeqOp α)) (hp : DeqOp.peak ops xs ≤ (2 ^ 31 - 3) * E.S) :
    ∃ d' m' m'' b₀ drops, Deque.runW B E ops d m = .ok ((DeqOp.run ops xs).1.map some, d', m') ∧
      d'.len E = .ok (DeqOp.run ops xs).2.length ∧ d'.drop E m' = .ok m'' ∧
      (∀ b, m''.p.live b = if b = pb then none else m.p.live b) ∧
      (∀ b, b ≠ b₀ → m''.t.live b = if b ∈ bl then none else m.t.live b) ∧
      m''.t.dropped = m.t.dropped ++ (if E.nd then drops else []) ∧
      (DeqOp.allIn ops xs ++ xs).Perm (DeqOp.allOut ops xs ++ drops) := by
  have hr := h.rep
  have hinv : DInv E ⟨m.t.but bl, m.p.but [pb]⟩ m d xs := ⟨pb, lo, bo, bl, hr⟩
  obtain ⟨d1, m1, g1, g2⟩ := hr.runW_small B ops hsz hp
  obtain ⟨d', m', drops, e1, ⟨pb', lo', bo', bl', e2⟩, e3, e4⟩ := DInv.run ops hinv
  rw [g2] at e1
  simp only [Except.ok.injEq, Prod.mk.injEq, true_and] at e1
  obtain ⟨rfl, rfl⟩ := e1
  obtain ⟨m'', b₀, f1, f2, f3, f4⟩ := e2.drop
  refine ⟨d1, m1, m'', b₀, drops ++ (DeqOp.run ops xs).2, g1, e2.length, f1, ?_, ?_, ?_, e4⟩
  · intro b
    rw [f3]
    simp [Mem.but, worldBut]
  · intro b hb
    rw [f2.out b (by simpa using hb)]
    rfl
  · rw [f4, e3]
    cases E.nd <;> simp

/-- C162. Past that, a deque whose pointer array is full panics in both builds when a push needs
another slot, except for `push_back` in a release build on an array of exactly 2^32 − 2 slots. -/
theorem C162_full_deque_panics_partial (B : Build) (E : DEnv α) {m : DMem α} {d : Deque}
    {pb bo : Nat} {bl : List Nat} {xs : List α} (h : HandedDeque E.S m d pb 0 bo bl xs)
    (h1 : 2 ^ 31 - 1 ≤ d.size) (h2 : d.size < 2 ^ 32) (hfull : bl.length = d.size) (x : α) :
    ((bo + xs.length) % E.S + 1 = E.S → (B = .release → d.size ≠ 2 ^ 32 - 2) →
      d.stepW B E (.pushBack x) m = .error .panic ∨
      ∃ m', d.stepW B E (.pushBack x) m = .ok (none, d, m')) ∧
    (bo = 0 → d.stepW B E (.pushFront x) m = .error .panic ∨
      ∃ m', d.stepW B E (.pushFront x) m = .ok (none, d, m')) := by
  have hr := h.rep
  constructor
  · intro hend hne
    rcases hr.reallocW_large B false h1 h2 rfl hfull (fun hB e => absurd e (hne hB)) with e | ⟨m', e⟩
    · left
      simp only [Deque.stepW, Deque.pushBackW, hr.lastPtr, hr.lastSlot, Exec.ok_bind,
        hr.atEnd.2 hend, hr.atLastSlot.2 ((Nat.zero_add _).trans hfull), ne_eq, not_true_eq_false,
        if_false, if_true, e, Exec.error_bind]
    · right
      refine ⟨m'.unwound E x, ?_⟩
      simp only [Deque.stepW, Deque.pushBackW, hr.lastPtr, hr.lastSlot, Exec.ok_bind,
        hr.atEnd.2 hend, hr.atLastSlot.2 ((Nat.zero_add _).trans hfull), ne_eq, not_true_eq_false,
        if_false, if_true, e, Bool.false_eq_true]
  · intro hb
    rcases hr.reallocW_large B true h1 h2 rfl hfull (fun _ _ => rfl) with e | ⟨m', e⟩
    · left
      simp only [Deque.stepW, Deque.pushFrontW, hr.atBegin.2 hb, hr.atFirstSlot.2 rfl, ne_eq,
        not_true_eq_false, if_false, if_true, e, Exec.error_bind]
    · right
      refine ⟨m'.unwound E x, ?_⟩
      simp only [Deque.stepW, Deque.pushFrontW, Exec.ok_bind, hr.atBegin.2 hb, hr.atFirstSlot.2 rfl,
        ne_eq, not_true_eq_false, if_false, if_true, e, Bool.false_eq_true]

/-- C162 fails there. In a release build the size 2^32 − 2 wraps around to itself: the array is copied
to one of the same size, and `push_back` writes the pointer to its new subarray behind it. -/
theorem C162_full_deque_overrun (E : DEnv α) {m : DMem α} {d : Deque} {pb bo : Nat} {bl : List Nat}
    {xs : List α} (h : HandedDeque E.S m d pb 0 bo bl xs) (hsz : d.size = 2 ^ 32 - 2)
    (hfull : bl.length = d.size) (hend : (bo + xs.length) % E.S + 1 = E.S) (x : α) :
    d.stepW .release E (.pushBack x) m = .error .ub := by
  simp only [Deque.stepW, h.rep.pushBackW_overrun hsz rfl hfull hend x, Exec.error_bind]

/-- C162 for lists. Every history in which the list never has 2^32 elements returns in both builds
what it returns on a mathematical sequence; clearing the list gives back every node, those of C++
included, and no other memory, and drops every element that is left. (`fuel` bounds the loop over
the nodes in the model.) -/
theorem C162_handed_list (B : Build) (P : Placer (LNode α) α) {size : Nat} (hsz : 0 < size)
    (align : Nat) (nd : Bool) {m : LMem α} {l : LList Unit} {ps : List Nat} {xs : List α}
    (h : HandedList size align m l ps xs) (ops : List (ListOp α)) (fuel : Nat)
    (hf : ListOp.peak ops xs < fuel) (hp : ListOp.peak ops xs < 2 ^ 32) :
    let E := listEnv P size align nd false
    ∃ l' m' l'' m'' drops, l.runW B E fuel ops m = .ok ((ListOp.run ops xs).1, l', m') ∧
      l'.size = (ListOp.run ops xs).2.length ∧ l'.clearW E fuel m' = .ok (l'', m'') ∧
      (∀ q, m''.reg q = if q ∈ ps then none else m.reg q) ∧
      (∀ q, q ≠ l.head → m''.node q = if q ∈ ps then none else m.node q) ∧
      m''.dropped = m.dropped ++ (if nd then drops else []) ∧
      (ListOp.allIn ops xs ++ xs).Perm (ListOp.allOut ops xs ++ drops) := by
  intro E
  have L : LLaw E (DefInv (memBut m ps) size align) := listEnv_law P align nd hsz _
  obtain ⟨l', m', ps', e1, e2, e5, e3, e4⟩ := LRep.runW L (B := B) (fuel := fuel) ops h.rep hf (.inr hp)
  have hle := ListOp.length_le_peak ops xs
  have hx : xs.length ≤ ListOp.peak ops xs := by
    cases ops
    · exact Nat.le_refl _
    · exact Nat.le_max_left _ _
  have hl : l.withSize (xs.length % 2 ^ 32) = l := by
    rw [Nat.mod_eq_of_lt (by omega), ← h.size]; rfl
  rw [hl, outsU32_small ops xs hp] at e1
  obtain ⟨l2, m'', f1, f2, f3, f4, f5⟩ := e3.clear L
  have hd : DefInv (memBut m ps) size align () m'' [] := f4.inv
  refine ⟨_, m', l2, m'', ListOp.allDropped ops xs ++ (ListOp.run ops xs).2, e1,
    Nat.mod_eq_of_lt (by omega), clearW_of f1 (by rw [e3.size]; omega), ?_, ?_, ?_, ?_⟩
  · intro q
    rw [hd.done]; rfl
  · intro q hq
    by_cases hn : (memBut m ps).node q = none
    · exact ((hd.node q (by simp)).2 hn).trans hn.symm
    · have hm : q ∉ ps := by intro hm; simp [memBut, hm] at hn
      rw [if_neg hm]
      simp only [memBut, if_neg hm] at hn
      rw [e2] at f5
      exact ((e4.trans f5) q hn (by simpa using ⟨hq, hm⟩)).2
  · rw [f3, e5, show E.nd = nd from rfl]
    cases nd <;> simp
  · exact ListOp.run_accounts ops xs

/-- C162 for hash maps. Whatever the build and the number of buckets, a history in which the map
never has more than 2147483776 entries does exactly what the map with unbounded counts does, that is,
what C128 says. -/
theorem C162_handed_hash (B : Build) {E : HEnv K V Unit} (hA : ∃ P, E.A = defaultNAlloc P none true)
    (hsz : 0 < E.size) (he : PartialEquiv E.eq) (hh : ∀ a b, E.eq a b = true → E.hash a = E.hash b)
    {m : HMem K V} {t : HTable Unit} {bs : List Nat} {cs : List (List (Nat × K × V))}
    (h : HandedTable E m t bs cs) (ops : List (MapOp K V))
    (hpk : MapOp.peak E.eq ops (cs.flatten.map Prod.snd) ≤ 2147483776) :
    t.runM B E ops m = t.run E ops m ∧
    ∃ t' m', t.runM B E ops m = .ok ((MapOp.run E.eq ops (cs.flatten.map Prod.snd)).1, t', m') := by
  obtain ⟨P, hP⟩ := hA
  have L : HLaw E (DefInv (memBut m.n (addrs cs)) E.size E.align) := by
    unfold HLaw
    rw [hP]
    exact defaultNAlloc_law P none true hsz (by simp) _
  have heq := HRepP.runM PolicyLoose.law (by decide) L he hh B ops h.rep hpk
  obtain ⟨t', m', _, _, _, _, _, e1, _⟩ := C128_handed_hash ⟨P, hP⟩ hsz he hh h ops hpk
  exact ⟨heq, t', m', heq.trans e1⟩

/-! ## Instances -/

/-- A memory with a deque of `n - 1` numbers, one per subarray, whose pointer array of `n` slots is
full. -/
def fullDequeMem (n : Nat) : DMem Nat where
  t := ⟨fun b => if b < n then some ⟨1, .heap, fun _ => some b⟩ else none, n,
    fun b hb => if_neg (Nat.not_lt.2 hb), [], 0, 0⟩
  p := ⟨fun b => if b = 0 then some ⟨n, .heap, fun i => some (.loc i 0)⟩ else none, 1,
    fun b hb => if_neg (by omega), [], 0, 0⟩

/-- The deque object. -/
def fullDeque (n : Nat) : Deque :=
  ⟨.loc 0 0, n, ⟨.loc 0 0, .loc 0 0, .loc 0 1, .loc 0 0⟩,
    ⟨.loc (n - 1) 0, .loc (n - 1) 0, .loc (n - 1) 1, .loc 0 (n - 1)⟩⟩

theorem fullDeque_handed {n : Nat} (hn : 0 < n) :
    HandedDeque 1 (fullDequeMem n) (fullDeque n) 0 0 0 (List.range n) (List.range (n - 1)) where
  ptrs := rfl
  array := ⟨_, rfl, rfl, rfl⟩
  room := by simp [fullDeque]
  slots := by
    intro i b hb
    obtain ⟨hi, rfl⟩ : i < n ∧ i = b := by simpa [List.getElem?_range, Option.some_inj,
      List.getElem?_eq_some_iff] using hb
    simp [fullDequeMem, Mem.read, Mem.cell, hi]
  distinct := List.nodup_range
  subs := by
    intro b hb
    exact ⟨_, if_pos (List.mem_range.1 hb), rfl, rfl⟩
  offset := by decide
  begin := by
    intro b hb
    obtain ⟨hi, rfl⟩ : 0 < n ∧ 0 = b := by simpa [List.getElem?_eq_some_iff] using hb
    rfl
  finish := by
    intro b hb
    obtain ⟨hi, rfl⟩ : n - 1 < n ∧ n - 1 = b := by simpa [List.getElem?_eq_some_iff] using hb
    simp [fullDeque, Nat.mod_one]
  count := by simp; omega
  elems := by
    intro i x b hx hb
    obtain ⟨hi, rfl⟩ : i < n - 1 ∧ i = x := by simpa [List.getElem?_eq_some_iff] using hx
    obtain ⟨hi', rfl⟩ : i < n ∧ i = b := by simpa [List.getElem?_eq_some_iff] using hb
    simp [fullDequeMem, Mem.read, Mem.cell, hi', Nat.mod_one]

/-- The deque of `2^32 - 2` slots is overrun. -/
example {n : Nat} (hn : n = 2 ^ 32 - 2) : (fullDeque n).stepW .release
    ⟨1, true, RawAlloc.bump, RawAlloc.bump⟩ (.pushBack 7) (fullDequeMem n) = .error .ub :=
  C162_full_deque_overrun ⟨1, true, RawAlloc.bump, RawAlloc.bump⟩ (fullDeque_handed (by omega)) hn
    List.length_range (by simp [Nat.mod_one]) 7

/-- Larger and smaller ones that cannot grow refuse. -/
example (B : Build) {n : Nat} (h1 : 2 ^ 31 - 1 ≤ n) (h2 : n < 2 ^ 32) (h3 : n ≠ 2 ^ 32 - 2) :
    (fullDeque n).stepW B ⟨1, true, RawAlloc.bump, RawAlloc.bump⟩ (.pushBack 7) (fullDequeMem n) =
      .error .panic ∨
    ∃ m', (fullDeque n).stepW B ⟨1, true, RawAlloc.bump, RawAlloc.bump⟩
      (.pushBack 7) (fullDequeMem n) = .ok (none, fullDeque n, m') :=
  (C162_full_deque_panics_partial B ⟨1, true, RawAlloc.bump, RawAlloc.bump⟩
    (fullDeque_handed (by omega)) h1 h2 List.length_range 7).1 (by simp [Nat.mod_one]) (fun _ => h3)

/-- The small deque of C128's instance in a release build. -/
example : (do
    let (os, _, _) ← Deque.runW .release ⟨4, true, RawAlloc.bump, RawAlloc.bump⟩
      [.pushBack 23, .pushBack 24, .pushBack 25, .pushFront 19, .remove 1, .popBack, .len]
      handedDeque handedDequeMem
    .ok os) = (.ok [some .unit, some .unit, some .unit, some .unit, some (.elem (some 10)),
      some (.elem (some 25)), some (.nat 5)] : Exec (List (Option (Out Nat)))) := rfl

/-- The table of C128's instance in both builds. -/
example (B : Build) : (do
    let (os, t, _) ← HTable.runM B (exampleHash (· % 100))
      [.get 101, .insert 7 70, .insert 8 80, .remove 5, .len, .get 3] ⟨.loc 3 0, 4, 3, 4, ()⟩
      handedHashMem
    .ok (os, t.bucketCount)) =
  (.ok ([.val (some 10), .val none, .val none, .val (some 50), .nat 4, .val (some 30)], 11) :
    Exec (List (MapOut Nat Nat) × Nat)) := by
  cases B <;> decide +kernel

end Verif
