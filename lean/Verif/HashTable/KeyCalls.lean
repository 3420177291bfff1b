import Verif.HashTable.OracleMove
import Verif.HashTable.OracleSteady
import Verif.HashTable.Leaks
import Verif.Spec.KeyCalls

/-! A hash function and an equality that record their calls, and what they record. -/

set_option autoImplicit false

namespace Verif
open Spec

variable {K V σ : Type} {E : HEnv K V σ} {Inv : σ → HNMem K V → List Nat → Prop}
  {w : World Nat} {wn : Nat → Option (Option (HCell K V))} {t : HTable σ}
  {bl : List Nat} {cs : List (List (Nat × K × V))}

/-- The hash function and equality of `E`, recording their calls. -/
def recordKeys (E : HEnv K V σ) : HashFns (List (KeyCall K)) K where
  hash l k := (some (E.hash k), l ++ [.hashed k])
  eq l a b := (some (E.eq a b), l ++ [.compared a b])

theorem recordKeys_like (E : HEnv K V σ) : (recordKeys E).Like E := ⟨fun _ _ => rfl, fun _ _ _ => rfl⟩

theorem findInBucketO_rec (k : K) {m : HMem K V} : ∀ {c : List (Nat × K × V)} {fuel : Nat}
    {s s' : List (KeyCall K)} {o : Option (Option Nat)}, HSeg m.n c 0 →
    findInBucketO (recordKeys E) fuel (nextOf c 0) k s m = .ok (o, s') →
    s' = s ++ (searched E.eq k (c.map fun x => x.2.1)).map (.compared · k)
  | [], 0, _, _, _, _, h => by cases h
  | [], f + 1, s, s', o, _, h => by
    simp [findInBucketO] at h
    simp [searched, h.2]
  | _ :: _, 0, _, _, _, _, h => by cases h
  | x :: c, f + 1, s, s', o, hs, h => by
    have hn := (HSeg.node (a := []) hs).2
    simp only [findInBucketO, nextOf_cons, if_neg hs.1, hn, Exec.ok_bind, recordKeys] at h
    simp only [List.map_cons, searched]
    cases he : E.eq x.2.1 k with
    | true =>
      rw [he] at h
      simp only [Except.ok.injEq, Prod.mk.injEq] at h
      simp [← h.2]
    | false =>
      rw [he] at h
      have := findInBucketO_rec k hs.2.2 h
      simp [this]

theorem removeLoopO_rec (k : K) {m : HMem K V} : ∀ {c : List (Nat × K × V)} {fuel : Nat} {sl : HSlot}
    {s s' : List (KeyCall K)} {o : Option (HSlot × Nat)}, HSeg m.n c 0 →
    sl.read m = .ok (nextOf c 0) →
    HTable.removeLoopO (recordKeys E) k fuel sl s m = .ok (o, s') →
    s' = s ++ (searched E.eq k (c.map fun x => x.2.1)).map (.compared · k)
  | [], 0, _, _, _, _, _, _, h => by cases h
  | [], f + 1, sl, s, s', o, _, hr, h => by
    simp [HTable.removeLoopO, hr] at h
    simp [searched, h.2]
  | _ :: _, 0, _, _, _, _, _, _, h => by cases h
  | x :: c, f + 1, sl, s, s', o, hs, hr, h => by
    have hn := (HSeg.node (a := []) hs).2
    have h0 := hs.1
    simp only [HTable.removeLoopO, hr, nextOf_cons, if_neg h0, hn, Exec.ok_bind, recordKeys] at h
    simp only [List.map_cons, searched]
    cases he : E.eq x.2.1 k with
    | true =>
      rw [he] at h
      simp only [Except.ok.injEq, Prod.mk.injEq] at h
      simp [← h.2]
    | false =>
      rw [he] at h
      have := removeLoopO_rec k hs.2.2 (by simp [HSlot.read, hn]) h
      simp [this]

/-- The keys of a bucket are those whose hash selects it, in order. -/
theorem Home.filter {hash : K → Nat} {bc : Nat} {l1 l2 : List (List (Nat × K × V))}
    {c : List (Nat × K × V)} (h : Home hash bc (l1 ++ c :: l2)) :
    ((ents (l1 ++ c :: l2)).map Prod.fst).filter (fun x => hash x % bc = l1.length) =
      c.map fun x => x.2.1 := by
  have hno : ∀ l : List (List (Nat × K × V)), (∀ d ∈ l, ∀ n ∈ d, hash n.2.1 % bc ≠ l1.length) →
      ((l.flatten.map Prod.snd).map Prod.fst).filter (fun x => hash x % bc = l1.length) = [] := by
    intro l hl
    rw [List.filter_eq_nil_iff]
    intro x hx
    simp only [List.map_map, List.mem_map] at hx
    obtain ⟨n, hn, rfl⟩ := hx
    obtain ⟨d, hd, hnd⟩ := List.mem_flatten.1 hn
    simpa using hl d hd n hnd
  have h1 := hno l1 fun d hd n hn => by
    obtain ⟨i, hi⟩ := List.mem_iff_getElem?.1 hd
    have hlt : i < l1.length := by
      by_contra hc
      rw [List.getElem?_eq_none (by omega)] at hi
      cases hi
    rw [h i d (by rw [List.getElem?_append_left hlt]; exact hi) n hn]
    omega
  have h2 := hno l2 fun d hd n hn => by
    obtain ⟨i, hi⟩ := List.mem_iff_getElem?.1 hd
    rw [h (l1.length + (i + 1)) d (by
      rw [List.getElem?_append_right (by omega), Nat.add_sub_cancel_left, List.getElem?_cons_succ]
      exact hi) n hn]
    omega
  have h3 : ((c.map Prod.snd).map Prod.fst).filter (fun x => hash x % bc = l1.length) =
      c.map fun x => x.2.1 := by
    rw [List.filter_eq_self.2, List.map_map]
    · rfl
    · intro x hx
      simp only [List.map_map, List.mem_map] at hx
      obtain ⟨n, hn, rfl⟩ := hx
      simpa using h.mid n hn
  simp only [ents, List.flatten_append, List.flatten_cons, List.map_append, List.filter_append, h1, h2,
    h3, List.nil_append, List.append_nil]

/-- What a search asks of keys. -/
def searchCalls (E : HEnv K V σ) (bc : Nat) (ks : List K) (k : K) : List (KeyCall K) :=
  .hashed k :: (searched E.eq k (ks.filter fun x => E.hash x % bc = E.hash k % bc)).map (.compared · k)

theorem HCore.findO_rec {m : HMem K V} (h : HCore True E Inv w wn m t bl cs) {k : K}
    {s s' : List (KeyCall K)} {o : Option (Ptr × Option Nat)}
    (hf : t.findO (recordKeys E) k s m = .ok (o, s')) :
    s' = s ++ searchCalls E t.bucketCount ((ents cs).map Prod.fst) k := by
  obtain ⟨l1, c, l2, rfl, e1, e2, e3⟩ := h.bucketAt (E.hash k)
  simp only [HTable.findO, recordKeys, e2, Exec.ok_bind, e3] at hf
  obtain ⟨⟨o1, s1⟩, g1, g2⟩ := Exec.bind_ok hf
  cases g2
  have := findInBucketO_rec k (h.chains c (by simp)) g1
  have hfil := h.home.filter
  rw [searchCalls, ← e1, hfil, this]
  simp

theorem writeBucket_inv {m m' : HMem K V} {b i x : Nat} (h : m.writeBucket E (.loc b i) x = .ok m') :
    b ≠ E.stat ∧ m'.n = m.n ∧ ∀ b', b' ≠ b → m'.b.live b' = m.b.live b' := by
  simp only [HMem.writeBucket] at h
  split_ifs at h with hb
  obtain ⟨mb, h1, h2⟩ := Exec.bind_ok h
  cases h2
  refine ⟨hb, rfl, fun b' hb' => ?_⟩
  unfold Mem.write at h1
  simp only at h1
  cases hl : m.b.live b with
  | none => rw [hl] at h1; cases h1
  | some blk =>
    rw [hl] at h1
    simp only at h1
    split_ifs at h1
    simp only [Except.ok.injEq] at h1
    subst h1
    simp [Mem.setBlock, hb']

theorem ptrAdd_inv {m : Mem Nat} {b i n : Nat} {p : Ptr} (h : m.ptrAdd (.loc b i) n = .ok p) :
    p = .loc b (i + n) := by
  unfold Mem.ptrAdd at h
  simp only at h
  cases hl : m.live b with
  | none => rw [hl] at h; cases h
  | some blk =>
    rw [hl] at h
    simp only at h
    split_ifs at h
    cases h; rfl

theorem moveChainO_rec {nb bc : Nat} : ∀ {c : List (Nat × K × V)} {fuel : Nat}
    {s s' : List (KeyCall K)} {m m' : HMem K V} {o : Bool}, HSeg m.n c 0 → (c.map Prod.fst).Nodup →
    HTable.moveChainO E (recordKeys E) (.loc nb 0) bc fuel (nextOf c 0) s m = .ok (o, s', m') →
    o = true ∧ s' = s ++ c.map (fun x => .hashed x.2.1) ∧
      (∀ q, q ∉ c.map Prod.fst → m'.n.node q = m.n.node q) ∧
      ∀ b, b ≠ nb → m'.b.live b = m.b.live b
  | [], 0, _, _, _, _, _, _, _, h => by cases h
  | [], f + 1, s, s', m, m', o, _, _, h => by
    simp only [HTable.moveChainO, nextOf_nil, if_true, Except.ok.injEq, Prod.mk.injEq] at h
    obtain ⟨rfl, rfl, rfl⟩ := h
    exact ⟨rfl, by simp, fun _ _ => rfl, fun _ _ => rfl⟩
  | _ :: _, 0, _, _, _, _, _, _, _, h => by cases h
  | x :: c, f + 1, s, s', m, m', o, hs, hd, h => by
    have hn := (HSeg.node (a := []) hs).2
    simp only [HTable.moveChainO, nextOf_cons, if_neg hs.1, hn, Exec.ok_bind, recordKeys] at h
    split_ifs at h
    obtain ⟨q, h1, h⟩ := Exec.bind_ok h
    obtain rfl := ptrAdd_inv h1
    obtain ⟨y, _, h⟩ := Exec.bind_ok h
    obtain ⟨m1, h3, h⟩ := Exec.bind_ok h
    obtain ⟨m2, h4, h⟩ := Exec.bind_ok h
    obtain ⟨m1', e1, e2, e3, _⟩ := HMem.modify_ok hn fun c => { c with next := y }
    rw [e1] at h3
    cases h3
    obtain ⟨_, f2, f3⟩ := writeBucket_inv h4
    rw [List.map_cons, List.nodup_cons] at hd
    have hfr : ∀ q, q ≠ x.1 → m2.n.node q = m.n.node q := fun q hq => by
      rw [f2, e3, Function.update_of_ne hq]
    obtain ⟨g1, g2, g3, g4⟩ := moveChainO_rec (c := c) (hs.2.2.frame fun n hm => hfr _ (by
      intro e
      exact hd.1 (by rw [← e]; exact List.mem_map_of_mem hm))) hd.2 h
    refine ⟨g1, by simp [g2], fun q hq => ?_, fun b hb => by rw [g4 b hb, f3 b hb, e2]⟩
    simp only [List.map_cons, List.mem_cons, not_or] at hq
    rw [g3 q hq.2, hfr q hq.1]

theorem moveChainsO_rec {nb bc ob fuel : Nat} (hne : ob ≠ nb) {post : List Nat} :
    ∀ {ds : List (List (Nat × K × V))} {pre : List Nat} {s s' : List (KeyCall K)} {m m' : HMem K V}
      {o : Bool}, (∀ d ∈ ds, HSeg m.n d 0) → (ds.flatten.map Prod.fst).Nodup →
    ArrIs m.b ob (pre ++ ds.map (fun c => nextOf c 0) ++ post) →
    HTable.moveChainsO E (recordKeys E) fuel (.loc nb 0) bc (.loc ob pre.length) ds.length s m =
      .ok (o, s', m') →
    s' = s ++ ds.flatten.map fun x => .hashed x.2.1
  | [], pre, s, s', m, m', o, _, _, _, h => by
    simp only [List.length_nil, HTable.moveChainsO, Except.ok.injEq, Prod.mk.injEq] at h
    simp [← h.2.1]
  | d :: ds, pre, s, s', m, m', o, hs, hd, ha, h => by
    have hr : m.b.read (.loc ob pre.length) = .ok (nextOf d 0) := ha.read (by simp)
    simp only [List.length_cons, HTable.moveChainsO, hr, Exec.ok_bind] at h
    have hlen : (pre ++ [0]).length = pre.length + 1 := by simp
    rw [List.flatten_cons, List.map_append, List.nodup_append] at hd
    by_cases hd0 : d = []
    · subst hd0
      simp only [nextOf_nil, if_true, Ptr.next, ← hlen] at h
      simpa using moveChainsO_rec hne (fun x hx => hs x (by simp [hx])) hd.2.1 (by simpa using ha) h
    · rw [if_neg fun e => hd0 ((hs d (by simp)).nextOf_ne.1 e)] at h
      obtain ⟨⟨o1, s1, m1⟩, h1, h⟩ := Exec.bind_ok h
      obtain ⟨rfl, rfl, e3, e4⟩ := moveChainO_rec (hs d (by simp)) hd.1 h1
      obtain ⟨m2, h2, h⟩ := Exec.bind_ok h
      obtain ⟨f1, f2, _⟩ := writeBucket_inv h2
      obtain ⟨m2', g1, g2, g3, g4⟩ := (ha.congr (e4 ob hne)).write f1 (i := pre.length) (by simp) 0
      rw [g1] at h2
      cases h2
      have hset : (pre ++ (d :: ds).map (fun c => nextOf c 0) ++ post).set pre.length 0 =
          pre ++ [0] ++ ds.map (fun c => nextOf c 0) ++ post := by
        simp
      rw [hset] at g3
      simp only [Ptr.next, ← hlen] at h
      have := moveChainsO_rec hne (fun x hx => by
        rw [f2]
        refine (hs x (by simp [hx])).frame fun n hn => e3 _ fun hm => ?_
        exact hd.2.2 n.1 hm n.1 (List.mem_map_of_mem (List.mem_flatten.2 ⟨x, hx, hn⟩)) rfl)
        hd.2.1 g3 h
      rw [this]
      simp

theorem HCore.rehashO_rec {m m' : HMem K V} {t' : HTable σ} (h : HCore True E Inv w wn m t bl cs)
    {bc : Nat} {s s' : List (KeyCall K)} {o : Bool}
    (hr : t.rehashO E (recordKeys E) bc s m = .ok (o, s', t', m')) :
    o = true ∧ t'.bucketCount = bc ∧ s' = s ++ (ents cs).map fun x => .hashed x.1 := by
  have hlike := rehashO_like (recordKeys_like E) t bc s m
  have ho : o = true ∧ t'.bucketCount = bc := by
    obtain ⟨s1, h1⟩ := hlike
    rw [h1] at hr
    cases hx : t.rehash E bc m with
    | error x => rw [hx] at hr; cases hr
    | ok r =>
      rw [hx] at hr
      simp only [Except.map, Except.ok.injEq, Prod.mk.injEq] at hr
      refine ⟨hr.1.symm, ?_⟩
      rw [← hr.2.2.1]
      exact (rehash_sizes (t' := r.1) (m' := r.2) hx).1
  refine ⟨ho.1, ho.2, ?_⟩
  have hstat : m.b.live E.stat ≠ none := by
    rw [h.out E.stat (fun hm => h.stat (h.blNew _ hm).1)]; exact h.stat
  obtain ⟨nb, mb, m1, m2, p, e1, e2, e3, e4, e5, e6, e7, e8, e9⟩ := newArray_ok hstat bc
  have hcur : curArr E bl ≠ nb := by
    intro hc
    obtain ⟨blk, h1, _⟩ := h.arr
    rw [hc, e3] at h1
    cases h1
  simp only [HTable.rehashO, e1, Exec.ok_bind, e4, e5, e6] at hr
  obtain ⟨⟨o1, s1, m3⟩, g1, g2⟩ := Exec.bind_ok hr
  have hs : s1 = s ++ cs.flatten.map fun x => .hashed x.2.1 := by
    rw [h.start, ← h.len] at g1
    refine moveChainsO_rec hcur (pre := []) (post := [sentinel]) (by rw [e7]; exact h.chains) h.nodup
      ?_ g1
    have := h.arr.congr (e9 (curArr E bl) hcur)
    simpa [heads] using this
  have hs' : s' = s1 := by
    cases o1 with
    | false => cases g2; rfl
    | true =>
      obtain ⟨r, _, g3⟩ := Exec.bind_ok g2
      cases g3; rfl
  rw [hs', hs, ents, List.map_map]
  rfl

theorem HRep.insertImplO_rec {peak : Nat} {m m' : HMem K V} {t' : HTable σ}
    (h : HRep True E Inv w wn m t peak bl cs) {b : Ptr} {k : K} {v : V}
    {s s' : List (KeyCall K)} {o : Option Nat}
    (hr : t.insertImplO E (recordKeys E) b k v s m = .ok (o, s', t', m')) :
    s' = s ++ if t'.bucketCount = t.bucketCount then [] else
      ((ents cs).map Prod.fst).map .hashed ++ [.hashed k] := by
  obtain ⟨⟨r, nr⟩, h1, hr⟩ := Exec.bind_ok hr
  obtain ⟨⟨o1, s1, t1, m1⟩, h2, hr⟩ := Exec.bind_ok hr
  have hend : s' = s1 ∧ t'.bucketCount = t1.bucketCount := by
    cases o1 with
    | none => cases hr; exact ⟨rfl, rfl⟩
    | some q =>
      obtain ⟨_, _, hr⟩ := Exec.bind_ok hr
      obtain ⟨_, _, hr⟩ := Exec.bind_ok hr
      obtain ⟨_, _, hr⟩ := Exec.bind_ok hr
      obtain ⟨_, _, hr⟩ := Exec.bind_ok hr
      cases hr
      exact ⟨rfl, rfl⟩
  rw [hend.1, hend.2]
  cases r with
  | none => cases h2; simp
  | some bc =>
    obtain ⟨⟨o2, s2, t2, m2⟩, g1, g2⟩ := Exec.bind_ok h2
    have hc : HCore True E Inv w wn m { t with nextResize := nr } bl cs :=
      { h.core with }
    obtain ⟨rfl, k2, k3⟩ := hc.rehashO_rec g1
    have hlt : t.bucketCount < bc := by
      by_cases hc : t.count < maxEntries
      · obtain ⟨r, n, e1, _, _, e4⟩ := h.policy.step h.peak hc
        rw [h1] at e1
        cases e1
        exact (e4 _ rfl).1
      · have hp := h.peak
        obtain ⟨h2, hf⟩ := h.policy.full (by omega)
        rw [show maxEntries = t.count by omega, h1] at hf
        cases hf
    obtain ⟨tg, _, g4⟩ := Exec.bind_ok g2
    cases g4
    rw [if_neg (by omega), k3]
    simp

theorem HCore.removeEntryO_rec {m m' : HMem K V} {t' : HTable σ}
    (h : HCore True E Inv w wn m t bl cs) {k : K} {s s' : List (KeyCall K)}
    {o : Option (Option (K × V))}
    (hr : t.removeEntryO E (recordKeys E) k s m = .ok (o, s', t', m')) :
    s' = s ++ searchCalls E t.bucketCount ((ents cs).map Prod.fst) k ∧
      t'.bucketCount = t.bucketCount := by
  obtain ⟨l1, c, l2, rfl, e1, e2, e3⟩ := h.bucketAt (E.hash k)
  simp only [HTable.removeEntryO, e2, Exec.ok_bind,
    show ∀ (s : List (KeyCall K)) k, (recordKeys E).hash s k = (some (E.hash k), s ++ [.hashed k])
      from fun _ _ => rfl] at hr
  obtain ⟨⟨o1, s1⟩, g1, g2⟩ := Exec.bind_ok hr
  have hs := removeLoopO_rec k (h.chains c (by simp))
    (sl := .bucket (.loc (curArr E bl) l1.length)) e3 g1
  have hfil := h.home.filter
  have hend : s' = s1 ∧ t'.bucketCount = t.bucketCount := by
    cases o1 with
    | none => cases g2; exact ⟨rfl, rfl⟩
    | some r =>
      obtain ⟨sl, p⟩ := r
      simp only at g2
      by_cases hp : p = 0
      · rw [if_pos hp] at g2; cases g2; exact ⟨rfl, rfl⟩
      · rw [if_neg hp] at g2
        obtain ⟨_, _, g2⟩ := Exec.bind_ok g2
        obtain ⟨_, _, g2⟩ := Exec.bind_ok g2
        obtain ⟨⟨a, n⟩, _, g2⟩ := Exec.bind_ok g2
        simp only at g2
        split_ifs at g2
        cases g2
        exact ⟨rfl, rfl⟩
  refine ⟨?_, hend.2⟩
  rw [searchCalls, ← e1, hfil, hend.1, hs]
  simp

/-- What one call asks of keys. -/
theorem HRep.stepO_rec {peak : Nat} {m m' : HMem K V} {t' : HTable σ}
    (h : HRep True E Inv w wn m t peak bl cs) {op : MapOp K V} {s s' : List (KeyCall K)}
    {o : Option (MapOut K V)} (hr : t.stepO E (recordKeys E) op s m = .ok (o, s', t', m')) :
    s' = s ++ op.keyCalls E.hash E.eq ((ents cs).map Prod.fst) t.bucketCount
      (t'.bucketCount ≠ t.bucketCount) := by
  have hcore := h.core
  cases op with
  | insert k v =>
    obtain ⟨⟨o1, s1, t1, m1⟩, h1, hr⟩ := Exec.bind_ok hr
    cases hr
    obtain ⟨⟨o2, s2⟩, h2, h1⟩ := Exec.bind_ok h1
    have e2 := hcore.findO_rec h2
    rcases o2 with _ | ⟨b, _ | p⟩
    · cases h1
      simp [MapOp.keyCalls, MapOp.asked, e2, searchCalls]
    · obtain ⟨⟨o3, s3, t3, m3⟩, h3, h1⟩ := Exec.bind_ok h1
      cases h1
      rw [h.insertImplO_rec h3, e2]
      by_cases hb : t'.bucketCount = t.bucketCount <;>
        simp [MapOp.keyCalls, MapOp.asked, searchCalls, hb]
    · obtain ⟨_, _, h1⟩ := Exec.bind_ok h1
      obtain ⟨_, _, h1⟩ := Exec.bind_ok h1
      cases h1
      simp [MapOp.keyCalls, MapOp.asked, e2, searchCalls]
  | remove k =>
    obtain ⟨⟨o1, s1, t1, m1⟩, h1, hr⟩ := Exec.bind_ok hr
    obtain ⟨e1, e2⟩ := hcore.removeEntryO_rec h1
    have : s' = s1 ∧ t' = t1 := by rcases o1 with _ | _ | _ <;> cases hr <;> exact ⟨rfl, rfl⟩
    obtain ⟨rfl, rfl⟩ := this
    simp [MapOp.keyCalls, MapOp.asked, e1, e2, searchCalls]
  | removeEntry k =>
    obtain ⟨⟨o1, s1, t1, m1⟩, h1, hr⟩ := Exec.bind_ok hr
    obtain ⟨e1, e2⟩ := hcore.removeEntryO_rec h1
    cases hr
    simp [MapOp.keyCalls, MapOp.asked, e1, e2, searchCalls]
  | get k =>
    obtain ⟨⟨o1, s1⟩, h1, hr⟩ := Exec.bind_ok hr
    have e1 := hcore.findO_rec h1
    rcases o1 with _ | ⟨b, _ | p⟩
    · cases hr
      simp [MapOp.keyCalls, MapOp.asked, e1, searchCalls]
    · cases hr
      simp [MapOp.keyCalls, MapOp.asked, e1, searchCalls]
    · obtain ⟨_, _, hr⟩ := Exec.bind_ok hr
      cases hr
      simp [MapOp.keyCalls, MapOp.asked, e1, searchCalls]
  | modify k f =>
    obtain ⟨⟨o1, s1⟩, h1, hr⟩ := Exec.bind_ok hr
    have e1 := hcore.findO_rec h1
    rcases o1 with _ | ⟨b, _ | p⟩
    · cases hr
      simp [MapOp.keyCalls, MapOp.asked, e1, searchCalls]
    · cases hr
      simp [MapOp.keyCalls, MapOp.asked, e1, searchCalls]
    · obtain ⟨_, _, hr⟩ := Exec.bind_ok hr
      obtain ⟨_, _, hr⟩ := Exec.bind_ok hr
      cases hr
      simp [MapOp.keyCalls, MapOp.asked, e1, searchCalls]
  | contains k =>
    obtain ⟨⟨o1, s1⟩, h1, hr⟩ := Exec.bind_ok hr
    have e1 := hcore.findO_rec h1
    rcases o1 with _ | ⟨b, _ | p⟩
    · cases hr
      simp [MapOp.keyCalls, MapOp.asked, e1, searchCalls]
    · cases hr
      simp [MapOp.keyCalls, MapOp.asked, e1, searchCalls]
    · obtain ⟨_, _, hr⟩ := Exec.bind_ok hr
      cases hr
      simp [MapOp.keyCalls, MapOp.asked, e1, searchCalls]
  | entry k f v =>
    obtain ⟨⟨o1, s1, m1⟩, h1, hr⟩ := Exec.bind_ok hr
    obtain ⟨⟨o2, s2⟩, h2, h1⟩ := Exec.bind_ok h1
    have e2 := hcore.findO_rec h2
    rcases o2 with _ | ⟨b, _ | p⟩
    · cases h1
      cases hr
      simp [MapOp.keyCalls, MapOp.asked, e2, searchCalls]
    · cases h1
      obtain ⟨⟨o3, s3, t3, m3⟩, h3, hr⟩ := Exec.bind_ok hr
      have e3 := h.insertImplO_rec h3
      have : s' = s3 ∧ t' = t3 := by
        cases o3 with
        | none => cases hr; exact ⟨rfl, rfl⟩
        | some p =>
          obtain ⟨_, _, hr⟩ := Exec.bind_ok hr
          cases hr; exact ⟨rfl, rfl⟩
      obtain ⟨rfl, rfl⟩ := this
      rw [e3, e2]
      by_cases hb : t'.bucketCount = t.bucketCount <;>
        simp [MapOp.keyCalls, MapOp.asked, searchCalls, hb]
    · cases h1
      obtain ⟨_, _, hr⟩ := Exec.bind_ok hr
      obtain ⟨_, _, hr⟩ := Exec.bind_ok hr
      cases hr
      simp [MapOp.keyCalls, MapOp.asked, e2, searchCalls]
  | entryKey k =>
    obtain ⟨⟨o1, s1, m1⟩, h1, hr⟩ := Exec.bind_ok hr
    obtain ⟨⟨o2, s2⟩, h2, h1⟩ := Exec.bind_ok h1
    have e2 := hcore.findO_rec h2
    rcases o2 with _ | ⟨b, _ | p⟩
    · cases h1
      cases hr
      simp [MapOp.keyCalls, MapOp.asked, e2, searchCalls]
    · cases h1
      cases hr
      simp [MapOp.keyCalls, MapOp.asked, e2, searchCalls]
    · cases h1
      obtain ⟨_, _, hr⟩ := Exec.bind_ok hr
      cases hr
      simp [MapOp.keyCalls, MapOp.asked, e2, searchCalls]
  | len => cases hr; simp [MapOp.keyCalls, MapOp.asked]
  | isEmpty => cases hr; simp [MapOp.keyCalls, MapOp.asked]
  | clear =>
    obtain ⟨_, _, hr⟩ := Exec.bind_ok hr
    cases hr
    simp [MapOp.keyCalls, MapOp.asked]

end Verif
