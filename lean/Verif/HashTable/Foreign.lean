import Verif.HashTable.Iter
import Verif.FixedVector.Proofs

/-! Iteration over a hash table by C++ code.

The repository promises tables a C++ program can use: `HashTable` and `Node` are `repr(C)`
(src/internal/hash_table/mod.rs:30-45, node.rs:4-12), the bucket array ends in a sentinel
(src/internal/hash_table/mod.rs:262-291) and `CompatIter` is the C++ iterator
(src/internal/hash_table/iter.rs:4-24).  The C++ side is not in the repository; the functions here
are EASTL's `hashtable_iterator_base` and `hashtable` (include/EASTL/internal/hashtable.h). -/

set_option autoImplicit false

namespace Verif
open Spec

variable {K V σ : Type}

/-- C++ `while (*p == NULL) ++p; return {*p, p}` (the loop in
`hashtable_iterator_base::increment_bucket`).  The first argument bounds the number of rounds: no
result is reached if it is used up. -/
def cxxScan (m : HMem K V) : Nat → Ptr → Exec HCompat
  | 0, _ => .error .ub
  | fuel + 1, p => do
    let h ← m.b.read p
    if h = 0 then cxxScan m fuel p.next else .ok ⟨h, p⟩

/-- C++ `hashtable::begin`: `iterator i(mpBucketArray); if (!i.mpNode) i.increment_bucket();`. -/
def HTable.cxxBegin (t : HTable σ) (m : HMem K V) (fuel : Nat) : Exec HCompat :=
  cxxScan m fuel t.buckets

/-- C++ `hashtable::end`: `iterator(mpBucketArray + mnBucketCount)`, whose node is what is stored
there. -/
def HTable.cxxEnd (t : HTable σ) (m : HMem K V) : Exec HCompat := do
  let p ← m.b.ptrAdd t.buckets t.bucketCount
  let h ← m.b.read p
  .ok ⟨h, p⟩

/-- C++ `hashtable_iterator_base::increment`:
`mpNode = mpNode->mpNext; while (mpNode == NULL) mpNode = *++mpBucket;`.  Also returns the entry
the iterator was at. -/
def HCompat.cxxNext (it : HCompat) (m : HMem K V) (fuel : Nat) : Exec ((K × V) × HCompat) := do
  let c ← m.node it.node
  if c.next = 0 then do
    let it ← cxxScan m fuel it.bucket.next
    .ok ((c.key, c.val), it)
  else .ok ((c.key, c.val), ⟨c.next, it.bucket⟩)

/-- C++ `for (; it != end; ++it)`: the entries visited.  `!=` compares the nodes.  The first
argument bounds the number of rounds of this loop and of those within it. -/
def HCompat.cxxWalk (m : HMem K V) (e : HCompat) : Nat → HCompat → Exec (List (K × V))
  | 0, _ => .error .ub
  | fuel + 1, it =>
    if it.node = e.node then .ok []
    else do
      let (x, it) ← it.cxxNext m fuel
      let xs ← HCompat.cxxWalk m e fuel it
      .ok (x :: xs)

variable {ok : Prop} {E : HEnv K V σ} {Inv : σ → HNMem K V → List Nat → Prop} {w : World Nat}
  {wn : Nat → Option (Option (HCell K V))} {m : HMem K V} {t : HTable σ} {bl : List Nat}
  {cs : List (List (Nat × K × V))}

/-- The C++ iterator `it` is at the first of the nodes `c`, which are followed by the buckets
`ds`; it stands at array position `i`. -/
structure CxxAt (m : HMem K V) (b i : Nat) (it : HCompat) (c : List (Nat × K × V))
    (ds : List (List (Nat × K × V))) : Prop where
  bucket : it.bucket = .loc b i
  arr : ∃ pre : List Nat, pre.length = i + 1 ∧
    ArrIs m.b b (pre ++ ds.map (fun c => nextOf c 0) ++ [sentinel])
  node : it.node = nextOf c 0
  seg : HSeg m.n c 0
  segs : ∀ d ∈ ds, HSeg m.n d 0
  pos : c ≠ []

theorem cxxScan_ok {b : Nat} : ∀ {ds : List (List (Nat × K × V))} {pre : List Nat},
    ArrIs m.b b (pre ++ ds.map (fun c => nextOf c 0) ++ [sentinel]) →
    (∀ d ∈ ds, HSeg m.n d 0) → ∃ it,
    (∀ fuel, ds.length < fuel → cxxScan m fuel (.loc b pre.length) = .ok it) ∧
    ((ds.flatten = [] ∧ it = ⟨sentinel, .loc b (pre.length + ds.length)⟩) ∨
      ∃ l1 c l2, ds = l1 ++ c :: l2 ∧ l1.flatten = [] ∧ CxxAt m b (pre.length + l1.length) it c l2) := by
  intro ds
  induction ds with
  | nil =>
    intro pre ha _
    have hr : m.b.read (.loc b pre.length) = .ok sentinel := ha.read (by simp)
    refine ⟨⟨sentinel, .loc b pre.length⟩, fun fuel hf => ?_, .inl ⟨rfl, rfl⟩⟩
    obtain ⟨fuel, rfl⟩ : ∃ k, fuel = k + 1 := ⟨fuel - 1, by simp at hf; omega⟩
    have : sentinel ≠ 0 := by decide
    simp only [cxxScan, hr, Exec.ok_bind, if_neg this]
  | cons d ds ih =>
    intro pre ha hs
    have hr : m.b.read (.loc b pre.length) = .ok (nextOf d 0) := ha.read (by simp)
    have ha' : ArrIs m.b b (pre ++ [nextOf d 0] ++ ds.map (fun c => nextOf c 0) ++ [sentinel]) := by
      simpa using ha
    by_cases hd : d = []
    · subst hd
      obtain ⟨it, e1, e2⟩ := ih ha' fun x hx => hs x (by simp [hx])
      refine ⟨it, fun fuel hf => ?_, ?_⟩
      · obtain ⟨fuel, rfl⟩ : ∃ k, fuel = k + 1 := ⟨fuel - 1, by omega⟩
        have := e1 fuel (by simp at hf; omega)
        simp only [List.length_append, List.length_cons, List.length_nil, Nat.zero_add] at this
        simp only [cxxScan, hr, Exec.ok_bind, nextOf_nil, if_true, Ptr.next, this]
      · rcases e2 with ⟨e2, e3⟩ | ⟨l1, c, l2, e2, e3, e4⟩
        · refine .inl ⟨by simpa using e2, ?_⟩
          rw [e3]; simp; omega
        · refine .inr ⟨[] :: l1, c, l2, by simp [e2], by simpa using e3, ?_⟩
          have : (pre ++ [nextOf ([] : List (Nat × K × V)) 0]).length + l1.length =
            pre.length + ([] :: l1).length := by simp; omega
          rw [← this]; exact e4
    · have hseg := hs d (by simp)
      have h0 : nextOf d 0 ≠ 0 := fun e => hd (hseg.nextOf_ne.1 e)
      refine ⟨⟨nextOf d 0, .loc b pre.length⟩, fun fuel hf => ?_, .inr ⟨[], d, ds, rfl, rfl,
        ⟨rfl, ⟨pre ++ [nextOf d 0], by simp, ha'⟩, rfl, hseg, fun x hx => hs x (by simp [hx]), hd⟩⟩⟩
      obtain ⟨fuel, rfl⟩ : ∃ k, fuel = k + 1 := ⟨fuel - 1, by omega⟩
      simp only [cxxScan, hr, Exec.ok_bind, if_neg h0]

/-- One step of the C++ iterator: to the next node, or to the sentinel. -/
theorem CxxAt.next {b i : Nat} {it : HCompat} {n : Nat × K × V} {c : List (Nat × K × V)}
    {ds : List (List (Nat × K × V))} (h : CxxAt m b i it (n :: c) ds) :
    ∃ it', (∀ fuel, ds.length < fuel → it.cxxNext m fuel = .ok (n.2, it')) ∧
      ((c ++ ds.flatten = [] ∧ it'.node = sentinel) ∨
        ∃ i' c' ds', CxxAt m b i' it' c' ds' ∧ c ++ ds.flatten = c' ++ ds'.flatten ∧
          ds'.length ≤ ds.length) := by
  have hnode := (HSeg.node (a := []) h.seg).2
  have hn : it.node = n.1 := h.node
  by_cases hc : c = []
  · subst hc
    obtain ⟨pre, hp, ha⟩ := h.arr
    obtain ⟨it', e1, e2⟩ := cxxScan_ok ha h.segs
    refine ⟨it', fun fuel hf => ?_, ?_⟩
    · have := e1 fuel hf
      rw [hp] at this
      simp only [HCompat.cxxNext, hn, hnode, Exec.ok_bind, nextOf_nil, if_true, h.bucket, Ptr.next,
        this]
    · rcases e2 with ⟨e2, e3⟩ | ⟨l1, c', l2, e2, e3, e4⟩
      · exact .inl ⟨by simpa using e2, by rw [e3]⟩
      · exact .inr ⟨_, c', l2, e4, by simp [e2, e3], by simp [e2]; omega⟩
  · have hseg := h.seg.2.2
    have h0 : nextOf c 0 ≠ 0 := fun e => hc (hseg.nextOf_ne.1 e)
    refine ⟨⟨nextOf c 0, it.bucket⟩, fun fuel _ => ?_, .inr ⟨i, c, ds, ⟨h.bucket, h.arr, rfl, hseg, h.segs, hc⟩,
      rfl, Nat.le_refl _⟩⟩
    simp only [HCompat.cxxNext, hn, hnode, Exec.ok_bind, if_neg h0]

theorem CxxAt.addr {b i : Nat} {it : HCompat} {c : List (Nat × K × V)}
    {ds : List (List (Nat × K × V))} (h : CxxAt m b i it c ds) :
    it.node ∈ c.map Prod.fst := by
  cases c with
  | nil => exact absurd rfl h.pos
  | cons n c => rw [h.node]; simp

/-- The C++ loop up to the sentinel visits the rest. -/
theorem CxxAt.walk {b : Nat} {e : HCompat} (he : e.node = sentinel) : ∀ (k : Nat) {i : Nat}
    {it : HCompat} {c : List (Nat × K × V)} {ds : List (List (Nat × K × V))},
    CxxAt m b i it c ds → (∀ p ∈ (c ++ ds.flatten).map Prod.fst, p ≠ sentinel) →
    (c ++ ds.flatten).length = k →
    ∀ fuel, k + ds.length + 1 < fuel →
      HCompat.cxxWalk m e fuel it = .ok ((c ++ ds.flatten).map Prod.snd) := by
  intro k
  induction k with
  | zero =>
    intro i it c ds h _ hl
    cases c with
    | nil => exact absurd rfl h.pos
    | cons n c => simp at hl
  | succ k ih =>
    intro i it c ds h hs hl fuel hf
    have hne : it.node ≠ e.node := by
      rw [he]
      exact hs _ (by rw [List.map_append]; exact List.mem_append_left _ h.addr)
    cases c with
    | nil => exact absurd rfl h.pos
    | cons n c =>
      obtain ⟨it', e1, e2⟩ := h.next
      obtain ⟨fuel, rfl⟩ : ∃ k, fuel = k + 1 := ⟨fuel - 1, by omega⟩
      have e1 := e1 fuel (by omega)
      simp only [List.cons_append, List.length_cons, Nat.add_right_cancel_iff] at hl
      simp only [HCompat.cxxWalk, if_neg hne, e1, Exec.ok_bind]
      have htail : HCompat.cxxWalk m e fuel it' = .ok ((c ++ ds.flatten).map Prod.snd) := by
        rcases e2 with ⟨f1, f2⟩ | ⟨i', c', ds', f1, f2, f3⟩
        · obtain ⟨fuel, rfl⟩ : ∃ k, fuel = k + 1 := ⟨fuel - 1, by omega⟩
          simp only [HCompat.cxxWalk, f2, he, if_true, f1, List.map_nil]
        · rw [f2]
          rw [f2] at hl
          refine ih f1 ?_ hl fuel (by omega)
          intro p hp
          rw [← f2] at hp
          exact hs p (by rw [List.cons_append, List.map_cons]; exact List.mem_cons_of_mem _ hp)
      rw [htail]
      rfl

theorem cxxScan_mono : ∀ {fuel : Nat} {p : Ptr} {it : HCompat}, cxxScan m fuel p = .ok it →
    ∀ {fuel' : Nat}, fuel ≤ fuel' → cxxScan m fuel' p = .ok it := by
  intro fuel
  induction fuel with
  | zero => intro p it h; cases h
  | succ fuel ih =>
    intro p it h fuel' hf
    obtain ⟨fuel', rfl⟩ : ∃ k, fuel' = k + 1 := ⟨fuel' - 1, by omega⟩
    simp only [cxxScan] at h ⊢
    obtain ⟨x, hx, h⟩ := Exec.bind_ok h
    simp only [hx, Exec.ok_bind]
    split at h
    · next h0 => rw [if_pos h0]; exact ih h (by omega)
    · next h0 => rw [if_neg h0]; exact h

theorem cxxNext_mono {fuel fuel' : Nat} {it : HCompat} {r : (K × V) × HCompat}
    (h : it.cxxNext m fuel = .ok r) (hf : fuel ≤ fuel') : it.cxxNext m fuel' = .ok r := by
  simp only [HCompat.cxxNext] at h ⊢
  obtain ⟨c, hc, h⟩ := Exec.bind_ok h
  simp only [hc, Exec.ok_bind]
  split at h
  · next h0 =>
    obtain ⟨i, hi, h⟩ := Exec.bind_ok h
    rw [if_pos h0, cxxScan_mono hi hf]
    exact h
  · next h0 => rw [if_neg h0]; exact h

theorem cxxWalk_mono {e : HCompat} : ∀ {fuel : Nat} {it : HCompat} {xs : List (K × V)},
    HCompat.cxxWalk m e fuel it = .ok xs → ∀ {fuel' : Nat}, fuel ≤ fuel' →
    HCompat.cxxWalk m e fuel' it = .ok xs := by
  intro fuel
  induction fuel with
  | zero => intro it xs h; cases h
  | succ fuel ih =>
    intro it xs h fuel' hf
    obtain ⟨fuel', rfl⟩ : ∃ k, fuel' = k + 1 := ⟨fuel' - 1, by omega⟩
    simp only [HCompat.cxxWalk] at h ⊢
    split at h
    · next h0 => rw [if_pos h0]; exact h
    · next h0 =>
      rw [if_neg h0]
      obtain ⟨⟨x, i⟩, hx, h⟩ := Exec.bind_ok h
      obtain ⟨ys, hy, h⟩ := Exec.bind_ok h
      simp only [cxxNext_mono hx (show fuel ≤ fuel' by omega), Exec.ok_bind,
        ih hy (show fuel ≤ fuel' by omega)]
      exact h

/-- The C++ loop does not end well if the end is not the sentinel but the null pointer. -/
theorem CxxAt.walk_null {b : Nat} {e : HCompat} (he : e.node = 0)
    (hsn : m.n.node sentinel = none) : ∀ (k : Nat) {i : Nat}
    {it : HCompat} {c : List (Nat × K × V)} {ds : List (List (Nat × K × V))},
    CxxAt m b i it c ds → (c ++ ds.flatten).length = k →
    ∀ fuel xs, HCompat.cxxWalk m e fuel it ≠ .ok xs := by
  intro k
  induction k with
  | zero =>
    intro i it c ds h hl
    cases c with
    | nil => exact absurd rfl h.pos
    | cons n c => simp at hl
  | succ k ih =>
    intro i it c ds h hl fuel xs hw
    cases c with
    | nil => exact absurd rfl h.pos
    | cons n c =>
      have hne : it.node ≠ e.node := by
        rw [he, h.node]; exact h.seg.1
      obtain ⟨it', e1, e2⟩ := h.next
      cases fuel with
      | zero => cases hw
      | succ fuel =>
        simp only [HCompat.cxxWalk, if_neg hne] at hw
        obtain ⟨⟨x, j⟩, hx, hw⟩ := Exec.bind_ok hw
        have hx' := cxxNext_mono hx (Nat.le_max_left fuel (ds.length + 1))
        rw [e1 _ (by omega)] at hx'
        cases hx'
        obtain ⟨ys, hy, _⟩ := Exec.bind_ok hw
        simp only [List.cons_append, List.length_cons, Nat.add_right_cancel_iff] at hl
        rcases e2 with ⟨f1, f2⟩ | ⟨i', c', ds', f1, f2, f3⟩
        · cases fuel with
          | zero => cases hy
          | succ fuel =>
            have hs : sentinel ≠ e.node := by rw [he]; decide
            simp only [HCompat.cxxWalk, f2, if_neg hs, HCompat.cxxNext, HMem.node, NMem.get, hsn] at hy
            cases hy
        · rw [f2] at hl
          exact ih f1 hl fuel ys hy

theorem cxxScan_beyond {b : Nat} {hs : List Nat} (h : ArrIs m.b b hs) {i : Nat}
    (hi : hs.length ≤ i) (fuel : Nat) (it : HCompat) : cxxScan m fuel (.loc b i) ≠ .ok it := by
  intro hc
  cases fuel with
  | zero => cases hc
  | succ fuel =>
    obtain ⟨x, hx, _⟩ := Exec.bind_ok hc
    obtain ⟨blk, h1, h2, _⟩ := h
    simp only [Mem.read, Mem.cell, h1, show ¬ i < blk.size by omega, if_false] at hx
    cases hx

/-- An iterator standing at the sentinel although there are nodes left runs beyond the array. -/
theorem cxxWalk_beyond {b : Nat} {hs : List Nat} (ha : ArrIs m.b b hs) {e : HCompat}
    : ∀ (c : List (Nat × K × V)) {i : Nat}, hs.length ≤ i + 1 → HSeg m.n c 0 → c ≠ [] →
    (∀ n ∈ c, n.1 ≠ e.node) →
    ∀ fuel xs, HCompat.cxxWalk m e fuel ⟨nextOf c 0, .loc b i⟩ ≠ .ok xs := by
  intro c
  induction c with
  | nil => intro i _ _ h; exact absurd rfl h
  | cons n c ih =>
    intro i hi hseg _ hne fuel xs hw
    cases fuel with
    | zero => cases hw
    | succ fuel =>
      have hnode := (HSeg.node (a := []) hseg).2
      have hnn : n.1 ≠ e.node := hne n (by simp)
      rw [nextOf_cons] at hw
      simp only [HCompat.cxxWalk, if_neg hnn] at hw
      obtain ⟨⟨x, j⟩, hx, hw⟩ := Exec.bind_ok hw
      obtain ⟨ys, hy, _⟩ := Exec.bind_ok hw
      simp only [HCompat.cxxNext, hnode, Exec.ok_bind] at hx
      by_cases hc : c = []
      · subst hc
        rw [nextOf_nil, if_pos rfl] at hx
        obtain ⟨z, hz, _⟩ := Exec.bind_ok hx
        exact cxxScan_beyond ha hi fuel z hz
      · have h0 : nextOf c 0 ≠ 0 := fun e => hc (hseg.2.2.nextOf_ne.1 e)
        rw [if_neg h0] at hx
        cases hx
        exact ih hi hseg.2.2 hc (fun x hx => hne x (by simp [hx])) fuel ys hy

/-- Where the first Rust iterator stands: one past the first bucket that is not empty. -/
theorem nextBucket_spec {b : Nat} : ∀ {ds : List (List (Nat × K × V))} {pre : List Nat},
    ArrIs m.b b (pre ++ ds.map (fun c => nextOf c 0) ++ [sentinel]) →
    (∀ d ∈ ds, HSeg m.n d 0) →
    ((ds.flatten = [] ∧ nextBucket m (.loc b pre.length) ds.length =
        .ok (0, .loc b (pre.length + ds.length), 0)) ∨
      ∃ l1 c l2, ds = l1 ++ c :: l2 ∧ l1.flatten = [] ∧ c ≠ [] ∧
        nextBucket m (.loc b pre.length) ds.length =
          .ok (nextOf c 0, .loc b (pre.length + l1.length + 1), l2.length)) := by
  intro ds
  induction ds with
  | nil => intro pre _ _; exact .inl ⟨rfl, rfl⟩
  | cons d ds ih =>
    intro pre ha hs
    have hr : m.b.read (.loc b pre.length) = .ok (nextOf d 0) := ha.read (by simp)
    have ha' : ArrIs m.b b (pre ++ [nextOf d 0] ++ ds.map (fun c => nextOf c 0) ++ [sentinel]) := by
      simpa using ha
    by_cases hd : d = []
    · subst hd
      rcases ih ha' fun x hx => hs x (by simp [hx]) with ⟨e1, e2⟩ | ⟨l1, c, l2, e1, e2, e3, e4⟩
      · refine .inl ⟨by simpa using e1, ?_⟩
        simp only [List.length_append, List.length_cons, List.length_nil, Nat.zero_add] at e2
        simp only [nextBucket, List.length_cons, hr, Exec.ok_bind, nextOf_nil, if_true, Ptr.next, e2]
        congr 4; omega
      · refine .inr ⟨[] :: l1, c, l2, by simp [e1], by simpa using e2, e3, ?_⟩
        simp only [List.length_append, List.length_cons, List.length_nil, Nat.zero_add] at e4
        simp only [nextBucket, List.length_cons, hr, Exec.ok_bind, nextOf_nil, if_true, Ptr.next, e4]
        congr 4; omega
    · have h0 : nextOf d 0 ≠ 0 := fun e => hd ((hs d (by simp)).nextOf_ne.1 e)
      refine .inr ⟨[], d, ds, rfl, rfl, hd, ?_⟩
      simp only [nextBucket, List.length_cons, hr, Exec.ok_bind, if_neg h0, Ptr.next,
        List.length_nil, Nat.add_zero]

/-- The entries of bucket `j`, by hash, among those of all buckets. -/
theorem Home.filter_mid {hash : K → Nat} {bc : Nat} {l1 l2 : List (List (Nat × K × V))}
    {c : List (Nat × K × V)} (h : Home hash bc (l1 ++ c :: l2)) :
    (∀ x ∈ c, hash x.2.1 % bc = l1.length) ∧
      (∀ x ∈ l1.flatten ++ l2.flatten, hash x.2.1 % bc ≠ l1.length) := by
  refine ⟨fun x hx => h l1.length c (by simp) x hx, fun x hx => ?_⟩
  rw [List.mem_append] at hx
  rcases hx with hx | hx
  · obtain ⟨d, hd, hx⟩ := List.mem_flatten.1 hx
    obtain ⟨j, hj, rfl⟩ := List.getElem_of_mem hd
    have := h j _ (by rw [List.getElem?_append_left hj, List.getElem?_eq_getElem hj]) x hx
    omega
  · obtain ⟨d, hd, hx⟩ := List.mem_flatten.1 hx
    obtain ⟨j, hj, rfl⟩ := List.getElem_of_mem hd
    have := h (l1.length + 1 + j) l2[j] (by
      rw [List.getElem?_append_right (by omega)]
      simp [show l1.length + 1 + j - l1.length = j + 1 by omega]) x hx
    omega

end Verif
