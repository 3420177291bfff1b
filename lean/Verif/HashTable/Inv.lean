import Verif.HashTable.Table
import Verif.HashTable.PolicyProofs
import Verif.Spec.FiniteMapLemmas
import Verif.Vector.Proofs

/-! The invariant of a hash table and what each call does to it. -/

set_option autoImplicit false

namespace Verif
open Spec

variable {K V σ : Type}

/-- The entries of the chains. -/
def ents (cs : List (List (Nat × K × V))) : List (K × V) := cs.flatten.map Prod.snd

/-- The addresses of the nodes of the chains. -/
def addrs (cs : List (List (Nat × K × V))) : List Nat := cs.flatten.map Prod.fst

/-- The bucket array in use, given all arrays ever allocated, newest first. -/
def curArr (E : HEnv K V σ) (bl : List Nat) : Nat := bl.head?.getD E.stat

/-- The table `t` in memory `m` has chains `cs`.  `w`, `wn`: arrays and nodes from before the
table; `bl`: bucket arrays allocated, newest first.  `ok`: hash and equality keep their contract,
so that every key is in its bucket and no key is there twice. -/
structure HCore (ok : Prop) (E : HEnv K V σ) (Inv : σ → HNMem K V → List Nat → Prop) (w : World Nat)
    (wn : Nat → Option (Option (HCell K V))) (m : HMem K V) (t : HTable σ) (bl : List Nat)
    (cs : List (List (Nat × K × V))) : Prop where
  len : cs.length = t.bucketCount
  pos : 0 < t.bucketCount
  chains : ∀ c ∈ cs, HSeg m.n c 0
  nodup : (addrs cs).Nodup
  homes : ok → Home E.hash t.bucketCount cs
  dist : ok → Distinct E.eq (ents cs)
  fits : cs.flatten.length ≤ t.count
  inv : Inv t.al m.n (addrs cs)
  start : t.buckets = .loc (curArr E bl) 0
  arr : ArrIs m.b (curArr E bl) (heads cs)
  blNodup : bl.Nodup
  blNew : ∀ b ∈ bl, w b = none ∧ m.b.live b ≠ none
  out : ∀ b, b ∉ bl → m.b.live b = w b
  stat : w E.stat ≠ none
  empty : bl = [] → cs = [[]]
  keep : ∀ q, wn q ≠ none → q ∉ addrs cs ∧ m.n.node q = wn q

/-- With the state of the growth policy, of which only `P` is known. -/
structure HRepP (P : Nat → Nat → Nat → Prop) (ok : Prop) (E : HEnv K V σ)
    (Inv : σ → HNMem K V → List Nat → Prop) (w : World Nat)
    (wn : Nat → Option (Option (HCell K V))) (m : HMem K V) (t : HTable σ) (peak : Nat)
    (bl : List Nat) (cs : List (List (Nat × K × V))) : Prop where
  core : HCore ok E Inv w wn m t bl cs
  count : t.count = cs.flatten.length
  policy : P t.bucketCount t.nextResize peak
  peak : t.count ≤ peak
  arrs : bl = [] ↔ t.bucketCount = 1

/-- With the state of the growth policy. -/
abbrev HRep (ok : Prop) (E : HEnv K V σ) (Inv : σ → HNMem K V → List Nat → Prop) (w : World Nat)
    (wn : Nat → Option (Option (HCell K V))) (m : HMem K V) (t : HTable σ) (peak : Nat)
    (bl : List Nat) (cs : List (List (Nat × K × V))) : Prop :=
  HRepP PolicyAt ok E Inv w wn m t peak bl cs

/-- What the proofs need of the growth policy: asked about one more entry than the `c` there are, it
answers, keeps `P`, lets nothing be put into a table without an array, and only grows. -/
def PolicyLaw (P : Nat → Nat → Nat → Prop) (most : Nat) : Prop :=
  ∀ {buckets resize peak c : Nat}, P buckets resize peak → c ≤ peak → c < most →
    ∃ r resize', getRehashRequired resize buckets c 1 = .ok (r, resize') ∧
      P (r.getD buckets) resize' (max peak (c + 1)) ∧ (r = none → 1 < buckets) ∧
      ∀ b, r = some b → buckets < b

theorem PolicyAt.law : PolicyLaw PolicyAt maxEntries := by
  intro buckets resize peak c h hc hm
  obtain ⟨r, nr, h1, h2, h3, h4⟩ := h.step hc hm
  exact ⟨r, nr, h1, h2, h3, fun b hb => (h4 b hb).1⟩

variable {ok : Prop} {E : HEnv K V σ} {Inv : σ → HNMem K V → List Nat → Prop} {w : World Nat}
  {wn : Nat → Option (Option (HCell K V))} {m m' : HMem K V} {t t' : HTable σ} {bl : List Nat}
  {cs : List (List (Nat × K × V))} {peak : Nat}

theorem HCore.home (h : HCore True E Inv w wn m t bl cs) : Home E.hash t.bucketCount cs :=
  h.homes trivial

theorem HCore.distinct (h : HCore True E Inv w wn m t bl cs) : Distinct E.eq (ents cs) :=
  h.dist trivial

theorem setVal_mid {eq : K → K → Bool} (he : PartialEquiv eq) {A B : List (K × V)} {p : K × V} {k : K}
    (hd : Distinct eq (A ++ p :: B)) (hp : eq p.1 k = true) (v : V) :
    setVal eq k v (A ++ p :: B) = A ++ (p.1, v) :: B ∧ eraseKey eq k (A ++ p :: B) = A ++ B := by
  unfold Distinct at hd
  rw [List.pairwise_append, List.pairwise_cons] at hd
  obtain ⟨_, ⟨h1, _⟩, h2⟩ := hd
  have hA : ∀ x ∈ A, eq x.1 k = false := by
    intro x hx
    cases h : eq x.1 k with
    | false => rfl
    | true =>
      have := h2 x hx p (by simp)
      rw [he.trans _ _ _ h (he.symm _ _ hp)] at this
      cases this
  have hB : ∀ x ∈ B, eq x.1 k = false := by
    intro x hx
    cases h : eq x.1 k with
    | false => rfl
    | true =>
      have := h1 x hx
      rw [he.trans _ _ _ hp (he.symm _ _ h)] at this
      cases this
  constructor
  · simp only [setVal, List.map_append, List.map_cons, hp, if_true]
    congr 1
    · conv => rhs; rw [← List.map_id A]
      exact List.map_congr_left fun x hx => by simp [hA x hx]
    · congr 1
      conv => rhs; rw [← List.map_id B]
      exact List.map_congr_left fun x hx => by simp [hB x hx]
  · simp only [eraseKey, List.filter_append, List.filter_cons, hp]
    rw [List.filter_eq_self.2 fun x hx => by simp [hA x hx],
      List.filter_eq_self.2 fun x hx => by simp [hB x hx]]
    simp

theorem ents_mid (l1 l2 : List (List (Nat × K × V))) (c1 c2 : List (Nat × K × V))
    (n : Nat × K × V) : ents (l1 ++ (c1 ++ n :: c2) :: l2) =
      (l1.flatten ++ c1).map Prod.snd ++ n.2 :: (c2 ++ l2.flatten).map Prod.snd := by
  simp [ents]

theorem curArr_ne (h : HCore ok E Inv w wn m t bl cs) (hb : bl ≠ []) : curArr E bl ≠ E.stat := by
  cases bl with
  | nil => exact absurd rfl hb
  | cons b bl =>
    intro he
    have : b = E.stat := he
    exact h.stat (this ▸ (h.blNew b (by simp)).1)

theorem curArr_mem (hb : bl ≠ []) : curArr E bl ∈ bl := by
  cases bl with
  | nil => exact absurd rfl hb
  | cons b bl => simp [curArr]

/-- Changing only the drop log. -/
theorem HCore.congr (L : HLaw E Inv) (h : HCore ok E Inv w wn m t bl cs) (hn : m'.n.node = m.n.node)
    (hl : m'.n.link = m.n.link) (hr : m'.n.reg = m.n.reg) (hb : m'.b = m.b) :
    HCore ok E Inv w wn m' t bl cs where
  len := h.len
  pos := h.pos
  chains := fun c hc => (h.chains c hc).frame fun _ _ => by rw [hn]
  nodup := h.nodup
  homes := h.homes
  dist := h.dist
  fits := h.fits
  inv := L.frame h.inv (fun q => by rw [hn]) hl hr
  start := h.start
  arr := by rw [hb]; exact h.arr
  blNodup := h.blNodup
  blNew := by rw [hb]; exact h.blNew
  out := by rw [hb]; exact h.out
  stat := h.stat
  empty := h.empty
  keep := by rw [hn]; exact h.keep

theorem HCore.dropKey (L : HLaw E Inv) (h : HCore ok E Inv w wn m t bl cs) (k : K) :
    HCore ok E Inv w wn (m.dropKey E k) t bl cs := by
  refine h.congr L ?_ ?_ ?_ ?_ <;> (unfold HMem.dropKey NMem.logDrop; split <;> rfl)

theorem HCore.dropVal (L : HLaw E Inv) (h : HCore ok E Inv w wn m t bl cs) (v : V) :
    HCore ok E Inv w wn (m.dropVal E v) t bl cs := by
  refine h.congr L ?_ ?_ ?_ ?_ <;> (unfold HMem.dropVal NMem.logDrop; split <;> rfl)

theorem dropKey_dropped (m : HMem K V) (k : K) :
    (m.dropKey E k).n.dropped = m.n.dropped ++ [Sum.inl k].filter E.needs := by
  unfold HMem.dropKey NMem.logDrop
  cases h : E.ndK <;> simp [HEnv.needs, h]

theorem dropVal_dropped (m : HMem K V) (v : V) :
    (m.dropVal E v).n.dropped = m.n.dropped ++ [Sum.inr v].filter E.needs := by
  unfold HMem.dropVal NMem.logDrop
  cases h : E.ndV <;> simp [HEnv.needs, h]

theorem dropKey_node (m : HMem K V) (k : K) (p : Nat) : (m.dropKey E k).node p = m.node p := by
  unfold HMem.dropKey NMem.logDrop; cases E.ndK <;> rfl

theorem dropVal_node (m : HMem K V) (v : V) (p : Nat) : (m.dropVal E v).node p = m.node p := by
  unfold HMem.dropVal NMem.logDrop; cases E.ndV <;> rfl

/-- Replace the chain of one bucket. -/
theorem HCore.put {l1 l2 : List (List (Nat × K × V))} {c c' : List (Nat × K × V)}
    (h : HCore ok E Inv w wn m t bl (l1 ++ c :: l2)) (hb : t'.buckets = t.buckets)
    (hbc : t'.bucketCount = t.bucketCount) (hseg : HSeg m'.n c' 0)
    (hfr : ∀ q, q ∉ c.map Prod.fst → q ∉ c'.map Prod.fst → m'.n.node q = m.n.node q)
    (hnew : ∀ q ∈ c'.map Prod.fst, q ∈ c.map Prod.fst ∨ m.n.node q = none)
    (hnd : (c'.map Prod.fst).Nodup)
    (hhome : ok → ∀ n ∈ c', E.hash n.2.1 % t.bucketCount = l1.length)
    (hdist : ok → Distinct E.eq (ents (l1 ++ c' :: l2)))
    (hcount : (l1 ++ c' :: l2).flatten.length ≤ t'.count)
    (hinv : Inv t'.al m'.n (addrs (l1 ++ c' :: l2)))
    (harr : ArrIs m'.b (curArr E bl) (heads (l1 ++ c' :: l2)))
    (hlive : ∀ b, b ≠ curArr E bl → m'.b.live b = m.b.live b)
    (hbl : bl ≠ [] ∨ (c' = c ∧ m'.b = m.b)) :
    HCore ok E Inv w wn m' t' bl (l1 ++ c' :: l2) := by
  have hmem : ∀ d ∈ l1 ++ l2, ∀ n ∈ d, n.1 ∉ c.map Prod.fst ∧ n.1 ∉ c'.map Prod.fst := by
    intro d hd n hn
    have hn1 : n.1 ∉ c.map Prod.fst := by
      intro hm
      have hnod := h.nodup
      simp only [addrs, List.flatten_append, List.flatten_cons, List.map_append] at hnod
      rw [List.nodup_append, List.nodup_append] at hnod
      obtain ⟨_, ⟨_, _, h3⟩, h4⟩ := hnod
      rcases List.mem_append.1 hd with hd | hd
      · exact h4 n.1 (List.mem_map_of_mem (List.mem_flatten.2 ⟨d, hd, hn⟩)) n.1
          (List.mem_append.2 (.inl hm)) rfl
      · exact h3 n.1 hm n.1 (List.mem_map_of_mem (List.mem_flatten.2 ⟨d, hd, hn⟩)) rfl
    refine ⟨hn1, fun hm => ?_⟩
    rcases hnew _ hm with h1 | h1
    · exact hn1 h1
    · refine (h.chains d ?_).live n hn h1
      rcases List.mem_append.1 hd with hd | hd <;> simp [hd]
  refine
    { len := by rw [hbc, ← h.len]; simp
      pos := by rw [hbc]; exact h.pos
      chains := ?_
      nodup := ?_
      homes := fun ho => by rw [hbc]; exact (h.homes ho).replace (hhome ho)
      dist := hdist
      fits := hcount
      inv := hinv
      start := by rw [hb]; exact h.start
      arr := harr
      blNodup := h.blNodup
      blNew := ?_
      out := ?_
      stat := h.stat
      empty := ?_
      keep := ?_ }
  · intro d hd
    simp only [List.mem_append, List.mem_cons] at hd
    have hcase : d = c' ∨ d ∈ l1 ++ l2 := by simp only [List.mem_append]; tauto
    rcases hcase with rfl | hd'
    · exact hseg
    · refine (h.chains d ?_).frame fun n hn => hfr _ (hmem d hd' n hn).1 (hmem d hd' n hn).2
      rcases List.mem_append.1 hd' with hd | hd <;> simp [hd]
  · have hnod := h.nodup
    simp only [addrs, List.flatten_append, List.flatten_cons, List.map_append] at hnod ⊢
    rw [List.nodup_append, List.nodup_append] at hnod ⊢
    obtain ⟨h1, ⟨h2, h3, h4⟩, h5⟩ := hnod
    have hm : ∀ (l : List (List (Nat × K × V))), (∀ d ∈ l, d ∈ l1 ++ l2) →
        ∀ q ∈ l.flatten.map Prod.fst, q ∉ c'.map Prod.fst := by
      intro l hl q hq
      obtain ⟨n, hn, rfl⟩ := List.mem_map.1 hq
      obtain ⟨d, hd, hnd⟩ := List.mem_flatten.1 hn
      exact (hmem d (hl d hd) n hnd).2
    refine ⟨h1, ⟨hnd, h3, ?_⟩, ?_⟩
    · rintro a ha b hb rfl
      exact hm l2 (by simp +contextual) a hb ha
    · rintro a ha b hb rfl
      rcases List.mem_append.1 hb with hb | hb
      · exact hm l1 (by simp +contextual) a ha hb
      · exact h5 a ha a (List.mem_append.2 (.inr hb)) rfl
  · intro b hb
    refine ⟨(h.blNew b hb).1, ?_⟩
    by_cases hc : b = curArr E bl
    · obtain ⟨blk, h1, _⟩ := harr
      rw [hc, h1]; simp
    · rw [hlive b hc]; exact (h.blNew b hb).2
  · intro b hb
    rcases hbl with hbl | ⟨_, hbl⟩
    · rw [hlive b (fun e => hb (e ▸ curArr_mem hbl))]; exact h.out b hb
    · rw [hbl]; exact h.out b hb
  · intro he
    rcases hbl with hbl | ⟨rfl, _⟩
    · exact absurd he hbl
    · exact h.empty he
  · intro q hq
    obtain ⟨h1, h2⟩ := h.keep q hq
    have hq1 : q ∉ c.map Prod.fst := by
      intro hm
      apply h1
      simp only [addrs, List.flatten_append, List.flatten_cons, List.map_append, List.mem_append]
      tauto
    have hq2 : q ∉ c'.map Prod.fst := by
      intro hm
      rcases hnew q hm with h3 | h3
      · exact hq1 h3
      · rw [h3] at h2; exact hq h2.symm
    refine ⟨?_, by rw [hfr q hq1 hq2]; exact h2⟩
    simp only [addrs, List.flatten_append, List.flatten_cons, List.map_append, List.mem_append]
      at h1 ⊢
    tauto

/-- Keys that are equal have the same hash. -/
def HashOk (E : HEnv K V σ) : Prop := ∀ a b, E.eq a b = true → E.hash a = E.hash b

/-- What the search for a key finds, whatever hash and equality are. -/
theorem HCore.search (h : HCore ok E Inv w wn m t bl cs) (k : K) :
    ∃ l1 c l2, cs = l1 ++ c :: l2 ∧ l1.length = E.hash k % t.bucketCount ∧
      t.bucketForKey E k m = .ok (.loc (curArr E bl) l1.length) ∧
      m.b.read (.loc (curArr E bl) l1.length) = .ok (nextOf c 0) ∧
      ((∃ c1 n c2, c = c1 ++ n :: c2 ∧ E.eq n.2.1 k = true ∧ (∀ x ∈ c1, E.eq x.2.1 k = false) ∧
          t.find E k m = .ok (.loc (curArr E bl) l1.length, some n.1)) ∨
        ((∀ x ∈ c, E.eq x.2.1 k = false) ∧
          t.find E k m = .ok (.loc (curArr E bl) l1.length, none))) := by
  have hi : E.hash k % t.bucketCount < cs.length := by
    rw [h.len]; exact Nat.mod_lt _ h.pos
  obtain ⟨l1, l2, hcs, hl1⟩ := split_at (List.getElem?_eq_getElem hi)
  generalize cs[E.hash k % t.bucketCount] = c at hcs
  subst hcs
  have hb : t.bucketForKey E k m = .ok (.loc (curArr E bl) l1.length) := by
    have := h.arr.ptrAdd (i := 0) (n := l1.length) (by rw [heads_length]; simp; omega)
    have hp := h.pos
    simp only [HTable.bucketForKey, bucketIndex, if_neg (show t.bucketCount ≠ 0 by omega),
      Exec.ok_bind, h.start, ← hl1, this, Nat.zero_add]
  have hr : m.b.read (.loc (curArr E bl) l1.length) = .ok (nextOf c 0) := h.arr.read (heads_mid _ _ _)
  have hf : findInBucket E (t.count + 1) (nextOf c 0) k m =
      .ok ((c.find? fun n => E.eq n.2.1 k).map Prod.fst) := by
    refine findInBucket_ok k (h.chains c (by simp)) ?_
    have := h.fits
    simp only [List.flatten_append, List.flatten_cons, List.length_append] at this
    omega
  refine ⟨l1, c, l2, rfl, hl1, hb, hr, ?_⟩
  cases hfind : c.find? fun n => E.eq n.2.1 k with
  | some n =>
    left
    obtain ⟨hn, c1, c2, rfl, hc1⟩ := List.find?_eq_some_iff_append.1 hfind
    exact ⟨c1, n, c2, rfl, hn, fun x hx => by simpa using hc1 x hx,
      by simp [HTable.find, hb, hr, hf, hfind]⟩
  | none =>
    right
    refine ⟨fun x hx => ?_, by simp [HTable.find, hb, hr, hf, hfind]⟩
    have := List.find?_eq_none.1 hfind x hx
    simpa using this

/-- Where a key is, or would be. -/
theorem HCore.locate (h : HCore True E Inv w wn m t bl cs) (he : PartialEquiv E.eq) (hh : HashOk E)
    (k : K) :
    ∃ l1 c l2, cs = l1 ++ c :: l2 ∧ l1.length = E.hash k % t.bucketCount ∧
      t.bucketForKey E k m = .ok (.loc (curArr E bl) l1.length) ∧
      m.b.read (.loc (curArr E bl) l1.length) = .ok (nextOf c 0) ∧
      ((∃ c1 n c2, c = c1 ++ n :: c2 ∧ E.eq n.2.1 k = true ∧ (∀ x ∈ c1, E.eq x.2.1 k = false) ∧
          lookup E.eq (ents cs) k = some n.2 ∧
          t.find E k m = .ok (.loc (curArr E bl) l1.length, some n.1)) ∨
        ((∀ x ∈ c, E.eq x.2.1 k = false) ∧ lookup E.eq (ents cs) k = none ∧
          t.find E k m = .ok (.loc (curArr E bl) l1.length, none))) := by
  obtain ⟨l1, c, l2, rfl, hl1, hb, hr, hcase⟩ := h.search k
  refine ⟨l1, c, l2, rfl, hl1, hb, hr, ?_⟩
  rcases hcase with ⟨c1, n, c2, rfl, hn, hc1, hf⟩ | ⟨hnone, hf⟩
  · refine .inl ⟨c1, n, c2, rfl, hn, hc1, ?_, hf⟩
    rw [lookup_some he h.distinct]
    exact ⟨by rw [ents_mid]; simp, hn⟩
  · refine .inr ⟨hnone, ?_, hf⟩
    rw [lookup_none]
    intro p hp
    obtain ⟨n, hn, rfl⟩ := List.mem_map.1 hp
    obtain ⟨d, hd, hnd⟩ := List.mem_flatten.1 hn
    cases hk : E.eq n.2.1 k with
    | false => rfl
    | true =>
      obtain ⟨i, hi⟩ := List.mem_iff_getElem?.1 hd
      have := h.home i d hi n hnd
      rw [hh _ _ hk, ← hl1] at this
      subst this
      simp at hi
      subst hi
      rw [hnone n hnd] at hk
      cases hk

/-- Storing a value in a node. -/
theorem HCore.setNode (L : HLaw E Inv) {l1 l2 : List (List (Nat × K × V))}
    {c1 c2 : List (Nat × K × V)} {n : Nat × K × V}
    (h : HCore ok E Inv w wn m t bl (l1 ++ (c1 ++ n :: c2) :: l2)) (f : V → V) :
    ∃ m', m.modify n.1 (fun c => { c with val := f c.val }) = .ok m' ∧
      HCore ok E Inv w wn m' t bl (l1 ++ (c1 ++ (n.1, n.2.1, f n.2.2) :: c2) :: l2) ∧
      m'.n.dropped = m.n.dropped ∧ m'.node n.1 = .ok ⟨n.2.1, f n.2.2, nextOf c2 0⟩ := by
  have hseg := h.chains _ (show c1 ++ n :: c2 ∈ l1 ++ (c1 ++ n :: c2) :: l2 by simp)
  have hnode := hseg.node
  obtain ⟨m', e1, e2, e3, e4⟩ := HMem.modify_ok hnode.2 (fun c => { c with val := f c.val })
  have hdist : ok → Distinct E.eq (ents (l1 ++ (c1 ++ (n.1, n.2.1, f n.2.2) :: c2) :: l2)) := by
    intro ho
    have hd := h.dist ho
    have hkey : ∀ cs cs' : List (List (Nat × K × V)),
        (ents cs).map Prod.fst = (ents cs').map Prod.fst → Distinct E.eq (ents cs) →
        Distinct E.eq (ents cs') := by
      intro cs cs' he hd
      unfold Distinct at hd ⊢
      have h1 : ((ents cs).map Prod.fst).Pairwise fun a b => E.eq a b = false :=
        List.pairwise_map.2 hd
      rw [he] at h1
      exact List.pairwise_map.1 h1
    exact hkey _ _ (by simp [ents]) hd
  have hfst : (c1 ++ (n.1, n.2.1, f n.2.2) :: c2).map Prod.fst = (c1 ++ n :: c2).map Prod.fst := by
    simp
  have haddr : addrs (l1 ++ (c1 ++ (n.1, n.2.1, f n.2.2) :: c2) :: l2) =
      addrs (l1 ++ (c1 ++ n :: c2) :: l2) := by simp [addrs]
  have hhd : nextOf (c1 ++ (n.1, n.2.1, f n.2.2) :: c2) 0 = nextOf (c1 ++ n :: c2) 0 := by
    rw [nextOf_append, nextOf_append]; rfl
  have hnd : ((c1 ++ n :: c2).map Prod.fst).Nodup := by
    have := h.nodup
    simp only [addrs, List.flatten_append, List.flatten_cons, List.map_append] at this
    rw [List.nodup_append, List.nodup_append] at this
    rw [List.map_append]
    exact this.2.1.1
  have hne : ∀ x ∈ c1 ++ c2, x.1 ≠ n.1 := by
    intro x hx e
    rw [List.map_append, List.map_cons] at hnd
    have := (List.nodup_middle.1 hnd)
    rw [List.nodup_cons, ← List.map_append] at this
    exact this.1 (e ▸ List.mem_map_of_mem hx)
  refine ⟨m', e1, ?_, e4.dropped, ?_⟩
  · refine h.put rfl rfl ?_ ?_ ?_ (by rw [hfst]; exact hnd) ?_ hdist
      (by have := h.fits; simp at this ⊢; omega) (by rw [haddr]; exact L.frame h.inv e4.node e4.link e4.reg) ?_
      (by rw [e2]; exact fun _ _ => rfl) ?_
    · rw [HSeg.append] at hseg ⊢
      refine ⟨hseg.1.frame fun x hx => ?_, hseg.2.1, ?_, hseg.2.2.2.frame fun x hx => ?_⟩
      · rw [e3, Function.update_of_ne (hne x (by simp [hx]))]
      · rw [e3, Function.update_self]
      · rw [e3, Function.update_of_ne (hne x (by simp [hx]))]
    · intro q h1 _
      rw [e3, Function.update_of_ne]
      rintro rfl
      exact h1 (by simp)
    · intro q hq; rw [hfst] at hq; exact .inl hq
    · intro ho x hx
      have hm := (h.homes ho).mid
      simp only [List.mem_append, List.mem_cons] at hx
      rcases hx with hx | rfl | hx
      · exact hm x (by simp [hx])
      · exact hm n (by simp)
      · exact hm x (by simp [hx])
    · rw [e2]
      have := h.arr
      rw [← heads_set l1 l2 (c1 ++ n :: c2), hhd]
      have hs : (heads (l1 ++ (c1 ++ n :: c2) :: l2)).set l1.length (nextOf (c1 ++ n :: c2) 0) =
          heads (l1 ++ (c1 ++ n :: c2) :: l2) := heads_set _ _ _ _
      rw [hs]; exact this
    · left
      intro hb
      have := h.empty hb
      cases l1 with
      | nil => simp at this
      | cons a l => simp at this
  · simp [HMem.node, NMem.get, e3]

/-- Storing a value in an entry. -/
theorem HCore.setVal (L : HLaw E Inv) (he : PartialEquiv E.eq) {l1 l2 : List (List (Nat × K × V))}
    {c1 c2 : List (Nat × K × V)} {n : Nat × K × V} {k : K}
    (h : HCore True E Inv w wn m t bl (l1 ++ (c1 ++ n :: c2) :: l2)) (hk : E.eq n.2.1 k = true)
    (v : V) (f : V → V) (hf : f n.2.2 = v) :
    ∃ m', m.modify n.1 (fun c => { c with val := f c.val }) = .ok m' ∧
      HCore True E Inv w wn m' t bl (l1 ++ (c1 ++ (n.1, n.2.1, v) :: c2) :: l2) ∧
      ents (l1 ++ (c1 ++ (n.1, n.2.1, v) :: c2) :: l2) =
        Spec.setVal E.eq k v (ents (l1 ++ (c1 ++ n :: c2) :: l2)) ∧
      m'.n.dropped = m.n.dropped ∧ m'.node n.1 = .ok ⟨n.2.1, v, nextOf c2 0⟩ := by
  subst hf
  obtain ⟨m', e1, e2, e3, e4⟩ := h.setNode L f
  refine ⟨m', e1, e2, ?_, e3, e4⟩
  have hd := h.distinct
  rw [ents_mid] at hd
  rw [ents_mid, ents_mid, (setVal_mid he hd hk _).1]

/-- Adding a node at the head of its chain. -/
theorem HCore.push (L : HLaw E Inv) (he : ok → PartialEquiv E.eq) {l1 l2 : List (List (Nat × K × V))}
    {c : List (Nat × K × V)} {k : K} {v : V} (h : HCore ok E Inv w wn m t bl (l1 ++ c :: l2))
    (hl : l1.length = E.hash k % t.bucketCount)
    (hk : ok → lookup E.eq (ents (l1 ++ c :: l2)) k = none) (hbl : bl ≠ []) :
    ∃ p a n n' m', E.A.alloc E.size E.align t.al m.n = .ok (p, a, n) ∧
      m.b.read (.loc (curArr E bl) l1.length) = .ok (nextOf c 0) ∧
      n.modify p (fun _ => some ⟨k, v, nextOf c 0⟩) = .ok n' ∧
      ({ m with n := n' } : HMem K V).writeBucket E (.loc (curArr E bl) l1.length) p = .ok m' ∧
      HCore ok E Inv w wn m' { t with al := a, count := t.count + 1 } bl
        (l1 ++ ((p, k, v) :: c) :: l2) ∧
      m.n.node p = none ∧ m'.n.dropped = m.n.dropped ∧ m'.node p = .ok ⟨k, v, nextOf c 0⟩ := by
  obtain ⟨p, a, n, e1, e2, e3, e4, e5, e6⟩ := L.alloc h.inv
  have hmod : n.modify p (fun _ => some (⟨k, v, nextOf c 0⟩ : HCell K V)) =
      .ok { n with node := Function.update n.node p (some (some ⟨k, v, nextOf c 0⟩)) } := by
    simp [NMem.modify, e4]
  obtain ⟨m', f1, f2, f3, f4⟩ := ArrIs.write (E := E)
    (m := ⟨{ n with node := Function.update n.node p (some (some ⟨k, v, nextOf c 0⟩)) }, m.b⟩)
    h.arr (curArr_ne h hbl) (i := l1.length) (by rw [heads_length]; simp) p
  have hnode : m'.n.node = Function.update m.n.node p (some (some ⟨k, v, nextOf c 0⟩)) := by
    rw [f2]; simp [e4]
  have hentp : (ents (l1 ++ ((p, k, v) :: c) :: l2)).Perm ((k, v) :: ents (l1 ++ c :: l2)) := by
    simp only [ents, List.flatten_append, List.flatten_cons, List.map_append, List.map_cons,
      List.cons_append]
    exact List.perm_middle
  have haddrp : (addrs (l1 ++ ((p, k, v) :: c) :: l2)).Perm (p :: addrs (l1 ++ c :: l2)) := by
    simp only [addrs, List.flatten_append, List.flatten_cons, List.map_append, List.map_cons,
      List.cons_append]
    exact List.perm_middle
  have hc := h.chains c (by simp)
  have hpc : ∀ x ∈ c, x.1 ≠ p := fun x hx e => hc.live x hx (by rw [e]; exact e3)
  refine ⟨p, a, n, _, m', e1, h.arr.read (heads_mid _ _ _), hmod, f1, ?_, e3, by rw [f2]; exact e5,
    by simp [HMem.node, NMem.get, hnode]⟩
  have hnd : (c.map Prod.fst).Nodup := by
    have := h.nodup
    simp only [addrs, List.flatten_append, List.flatten_cons, List.map_append] at this
    rw [List.nodup_append, List.nodup_append] at this
    exact this.2.1.1
  refine h.put rfl rfl ?_ ?_ ?_ ?_ ?_ ?_ ?_ ?_ ?_ f4 (.inl hbl)
  · refine ⟨e2, by rw [hnode, Function.update_self], hc.frame fun x hx => ?_⟩
    rw [hnode, Function.update_of_ne (hpc x hx)]
  · intro q _ hq
    rw [hnode, Function.update_of_ne]
    rintro rfl
    exact hq (by simp)
  · intro q hq
    rw [List.map_cons, List.mem_cons] at hq
    rcases hq with rfl | hq
    · exact .inr e3
    · exact .inl hq
  · rw [List.map_cons, List.nodup_cons]
    refine ⟨?_, hnd⟩
    intro hm
    obtain ⟨x, hx, hxp⟩ := List.mem_map.1 hm
    exact hpc x hx hxp
  · intro ho x hx
    rcases List.mem_cons.1 hx with rfl | hx
    · exact hl.symm
    · exact (h.homes ho).mid x hx
  · exact fun ho => ((h.dist ho).cons (he ho) v (hk ho)).perm (he ho) hentp.symm
  · have := h.fits
    simp only [List.flatten_append, List.flatten_cons, List.length_append,
      List.length_cons] at this ⊢
    omega
  · refine L.perm ?_ haddrp.symm
    refine L.frame e6 ?_ (by rw [f2]) (by rw [f2])
    intro q
    rw [hnode, e4]
    by_cases hq : q = p
    · subst hq; simp
    · simp [Function.update_of_ne hq]
  · rw [← heads_set l1 l2 c]; exact f3

/-- The end of rehashing, once all entries are in the new array `nb`: the old buckets, all empty, are
freed. -/
theorem HCore.rehashEnd (L : HLaw E Inv) (he : ok → PartialEquiv E.eq)
    (h : HCore ok E Inv w wn m t bl cs) {bc nb : Nat} (hbc : 0 < bc) {m2 m3 : HMem K V}
    {cs' : List (List (Nat × K × V))} (hnbl : nb ∉ bl) (hcur : curArr E bl ≠ nb)
    (e3 : m.b.live nb = none) (e7 : m2.n = m.n) (e9 : ∀ b, b ≠ nb → m2.b.live b = m.b.live b)
    (f2 : cs'.length = bc) (f3 : ∀ c ∈ cs', HSeg m3.n c 0) (f4 : cs'.flatten.Perm cs.flatten)
    (f5 : ArrIs m3.b (curArr E bl) ([] ++ List.replicate cs.length 0 ++ [sentinel]))
    (f6 : ArrIs m3.b nb (heads cs')) (f7 : ok → Home E.hash bc cs') (f8 : NSame m2.n m3.n)
    (f9 : ∀ q, q ∉ cs.flatten.map Prod.fst → m3.n.node q = m2.n.node q)
    (f10 : ∀ b, b ≠ nb → b ≠ curArr E bl → m3.b.live b = m2.b.live b)
    (f11 : curArr E bl = E.stat → m3.b.live (curArr E bl) = m2.b.live (curArr E bl)) :
    ∃ a m4, t.freeBuckets E m3 = .ok ({ t with al := a }, m4) ∧
      HCore ok E Inv w wn m4 { t with al := a, buckets := .loc nb 0, bucketCount := bc } (nb :: bl)
        cs' ∧
      m4.n.dropped = m.n.dropped ∧ ∀ q, m4.n.node q = none → m.n.node q = none := by
  -- freeing the old buckets, which are all empty
  have hinv3 : Inv t.al m3.n (addrs cs) := by
    have hi := h.inv
    rw [← e7] at hi
    exact L.frame hi f8.node f8.link f8.reg
  have hfree : ∃ a m4, t.freeBuckets E m3 = .ok ({ t with al := a }, m4) ∧
      Inv a m4.n (addrs cs) ∧ m4.n.node = m3.n.node ∧ m4.n.dropped = m3.n.dropped ∧
      (∀ b, b ≠ curArr E bl → m4.b.live b = m3.b.live b) ∧
      (bl = [] → m4.b = m3.b) ∧ m4.b.live (curArr E bl) ≠ none := by
    have hlive3 : m3.b.live (curArr E bl) ≠ none := by
      obtain ⟨blk, h1, _⟩ := f5
      rw [h1]; simp
    by_cases h1 : 1 < t.bucketCount
    · have hbl : bl ≠ [] := by
        intro hb
        have hl := h.len
        rw [h.empty hb] at hl
        simp at hl
        omega
      have hnil : ∀ n, (List.replicate n ([] : List (Nat × K × V))).flatten = [] := by simp
      obtain ⟨a, m4, g1, g2, g3, g4, g5⟩ := freeChains_ok L (E := E) (fuel := t.count + 1)
        (b := curArr E bl) (post := [sentinel])
        (cs := List.replicate t.bucketCount ([] : List (Nat × K × V))) (a := t.al) (m := m3)
        (ps := addrs cs) (pre := []) (by
          intro c hc
          rw [List.eq_of_mem_replicate hc]
          trivial) (by rw [hnil]; simp) (by rw [hnil]; simp) (by rw [hnil]; simpa using hinv3)
        (by
          rw [h.len] at f5
          simpa using f5)
      have harr4 : ArrIs m4.b (curArr E bl) (List.replicate cs.length 0 ++ [sentinel]) := by
        rw [g3]; simpa using f5
      obtain ⟨m5, k1, k2, k3, k4⟩ := harr4.fill (E := E) (curArr_ne h hbl)
      rw [List.length_replicate, h.len] at k1
      rw [hnil] at g4 g5
      rw [List.length_replicate, List.length_nil] at g1
      refine ⟨a, m5, ?_, by rw [k2]; exact g2, ?_, ?_, ?_, fun hb => absurd hb hbl, ?_⟩
      · simp only [HTable.freeBuckets, if_pos h1, h.start, g1, Exec.ok_bind, k1]
      · rw [k2]; exact funext fun q => g4 q (by simp)
      · rw [k2]
        have hd4 : m4.n.dropped = m3.n.dropped := by
          have g6 : HTable.freeChains E (t.count + 1) (.loc (curArr E bl) 0) t.bucketCount t.al m3 =
              .ok (t.al, m3) := by
            have key : ∀ (n : Nat) (pre : List Nat), pre.length + n = t.bucketCount →
                (∀ x ∈ pre, x = 0) →
                HTable.freeChains E (t.count + 1) (.loc (curArr E bl) pre.length) n t.al m3 =
                  .ok (t.al, m3) := by
              intro n
              induction n with
              | zero => intro _ _ _; rfl
              | succ n ih =>
                intro pre hp hz
                have hr : m3.b.read (.loc (curArr E bl) pre.length) = .ok 0 := by
                  refine f5.read ?_
                  rw [h.len, List.nil_append]
                  rw [List.getElem?_append_left (by simp only [List.length_replicate]; omega),
                    List.getElem?_replicate, if_pos (by omega)]
                have := ih (pre ++ [0]) (by simp; omega) (by
                  intro x hx
                  simp only [List.mem_append, List.mem_singleton] at hx
                  rcases hx with hx | hx
                  · exact hz x hx
                  · exact hx)
                simp only [List.length_append, List.length_cons, List.length_nil,
                  Nat.zero_add] at this
                simp only [HTable.freeChains, hr, Exec.ok_bind, if_true, Ptr.next, this]
            exact key t.bucketCount [] (by simp) (by simp)
          rw [g6] at g1
          simp only [Except.ok.injEq, Prod.mk.injEq] at g1
          rw [← g1.2]
        exact hd4
      · intro b hb
        rw [k4 b hb, g3]
      · obtain ⟨blk, h1, _⟩ := k3
        rw [h1]; simp
    · exact ⟨t.al, m3, by simp [HTable.freeBuckets, h1], hinv3, rfl, rfl, fun _ _ => rfl,
        fun _ => rfl, hlive3⟩
  obtain ⟨a, m4, g1, g2, g3, g4, g5, g6, g7⟩ := hfree
  refine ⟨a, m4, g1, ?_, by rw [g4, f8.dropped, e7], fun q hq => by
      rw [g3] at hq
      rw [← e7]
      exact (f8.node q).1 hq⟩
  have hne : nb ≠ curArr E bl := Ne.symm hcur
  exact
    { len := f2
      pos := hbc
      chains := fun c hc => (f3 c hc).frame fun _ _ => by rw [g3]
      nodup := (f4.map _).nodup_iff.2 h.nodup
      homes := f7
      dist := fun ho => (h.dist ho).perm (he ho) (f4.map _).symm
      fits := by rw [f4.length_eq]; exact h.fits
      inv := L.perm g2 (f4.map _).symm
      start := rfl
      arr := f6.congr (g5 nb hne)
      blNodup := List.nodup_cons.2 ⟨hnbl, h.blNodup⟩
      blNew := by
        intro b hb
        rcases List.mem_cons.1 hb with rfl | hb
        · refine ⟨?_, ?_⟩
          · rw [← h.out b hnbl]; exact e3
          · rw [g5 b hne]
            obtain ⟨blk, h1, _⟩ := f6
            rw [h1]; simp
        · refine ⟨(h.blNew b hb).1, ?_⟩
          by_cases hbc : b = curArr E bl
          · rw [hbc]; exact g7
          · have hbn : b ≠ nb := fun e => hnbl (e ▸ hb)
            rw [g5 b hbc, f10 b hbn hbc, e9 b hbn]
            exact (h.blNew b hb).2
      out := by
        intro b hb
        simp only [List.mem_cons, not_or] at hb
        by_cases hbc : b = curArr E bl
        · have hbl : bl = [] := by
            by_contra hc
            exact hb.2 (hbc ▸ curArr_mem hc)
          have hst : curArr E bl = E.stat := by rw [hbl]; rfl
          rw [g6 hbl, hbc, f11 hst, e9 _ hcur, ← hbc]
          exact h.out b hb.2
        · rw [g5 b hbc, f10 b hb.1 hbc, e9 b hb.1]
          exact h.out b hb.2
      stat := h.stat
      empty := by simp
      keep := by
        intro q hq
        obtain ⟨h1, h2⟩ := h.keep q hq
        have h1' : q ∉ addrs cs' := fun hm => h1 ((f4.map Prod.fst).mem_iff.1 hm)
        refine ⟨h1', ?_⟩
        rw [g3, f9 q h1, e7]
        exact h2 }

/-- Rehashing. -/
theorem HCore.rehash (L : HLaw E Inv) (he : ok → PartialEquiv E.eq)
    (h : HCore ok E Inv w wn m t bl cs) {bc : Nat} (hbc : 0 < bc) :
    ∃ t' m' nb cs', t.rehash E bc m = .ok (t', m') ∧
      HCore ok E Inv w wn m' t' (nb :: bl) cs' ∧ cs'.flatten.Perm cs.flatten ∧
      t'.bucketCount = bc ∧ t'.count = t.count ∧ t'.nextResize = t.nextResize ∧
      m'.n.dropped = m.n.dropped ∧ (∀ q, m'.n.node q = none → m.n.node q = none) := by
  have hstat : m.b.live E.stat ≠ none := by
    rw [h.out E.stat (fun hm => h.stat (h.blNew _ hm).1)]; exact h.stat
  obtain ⟨nb, mb, m1, m2, p, e1, e2, e3, e4, e5, e6, e7, e8, e9⟩ := newArray_ok hstat bc
  have hnbl : nb ∉ bl := fun hm => (h.blNew nb hm).2 e3
  have hcur : curArr E bl ≠ nb := by
    intro hc
    obtain ⟨blk, h1, _⟩ := h.arr
    rw [hc, e3] at h1
    cases h1
  have hflat : (List.replicate bc ([] : List (Nat × K × V))).flatten = [] := by simp
  have hheads : heads (List.replicate bc ([] : List (Nat × K × V))) =
      List.replicate bc 0 ++ [sentinel] := by simp [heads]
  obtain ⟨m3, cs', f1, f2, f3, f4, f5, f6, f7, f8, f9, f10, f11⟩ := moveChains_ok (E := E) (nb := nb)
    (bc := bc) (ob := curArr E bl) (fuel := t.count + 1) e2 hbc hcur (ds := cs)
    (cs := List.replicate bc []) (pre := []) (post := [sentinel]) (m := m2) (by
      intro hs
      by_cases hb : bl = []
      · rw [h.empty hb]; rfl
      · exact absurd hs (curArr_ne h hb))
    (by simp) (by rw [e7]; exact h.chains) (by
      intro c hc
      rw [List.eq_of_mem_replicate hc]
      trivial)
    (by rw [hflat, List.append_nil]; exact h.nodup)
    (by
      have := h.arr.congr (e9 (curArr E bl) hcur)
      simpa [heads] using this)
    (by rw [hheads]; exact e8) (by
      intro i c hc
      have hmem := List.mem_of_getElem? hc
      rw [List.eq_of_mem_replicate hmem]
      simp)
    (by have := h.fits; omega)
  rw [hflat, List.append_nil] at f4 f9
  simp only [List.length_nil, h.len] at f1
  obtain ⟨a, m4, g1, g2, g3, g4⟩ := h.rehashEnd L he hbc hnbl hcur e3 e7 e9 f2 f3 f4 f5 f6 (fun _ => f7)
    f8 f9 f10 f11
  refine ⟨{ t with al := a, buckets := .loc nb 0, bucketCount := bc }, m4, nb, cs', ?_, g2, f4, rfl, rfl,
    rfl, g3, g4⟩
  simp only [HTable.rehash, e1, Exec.ok_bind, e4, e5, e6, h.start, f1, g1]

end Verif
