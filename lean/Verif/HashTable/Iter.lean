import Verif.HashTable.Ops

/-! Iteration over a hash table. -/

set_option autoImplicit false

namespace Verif
open Spec

variable {K V σ : Type} {ok : Prop} {E : HEnv K V σ} {Inv : σ → HNMem K V → List Nat → Prop} {w : World Nat}
  {wn : Nat → Option (Option (HCell K V))} {m m' : HMem K V} {t t' : HTable σ} {bl : List Nat}
  {cs cs' : List (List (Nat × K × V))} {peak : Nat}

/-- The iterator `it` is about to produce the nodes `c`, then those of the buckets `ds`. -/
structure IterAt (m : HMem K V) (b : Nat) (post : List Nat) (it : HIter)
    (c : List (Nat × K × V)) (ds : List (List (Nat × K × V))) : Prop where
  at' : ∃ pre : List Nat, it.bucket = .loc b pre.length ∧
    ArrIs m.b b (pre ++ ds.map (fun c => nextOf c 0) ++ post)
  rest : it.rest = ds.length
  node : it.node = nextOf c 0
  seg : HSeg m.n c 0
  segs : ∀ d ∈ ds, HSeg m.n d 0
  done : c = [] → ds = []

theorem nextBucket_ok {b : Nat} {post : List Nat} : ∀ {ds : List (List (Nat × K × V))}
    {pre : List Nat}, ArrIs m.b b (pre ++ ds.map (fun c => nextOf c 0) ++ post) →
    (∀ d ∈ ds, HSeg m.n d 0) →
    ∃ h p n c ds', nextBucket m (.loc b pre.length) ds.length = .ok (h, p, n) ∧
      IterAt m b post ⟨p, n, h⟩ c ds' ∧ ds.flatten = c ++ ds'.flatten := by
  intro ds
  induction ds with
  | nil =>
    intro pre ha _
    exact ⟨0, .loc b pre.length, 0, [], [], rfl,
      ⟨⟨pre, rfl, ha⟩, rfl, rfl, trivial, by simp, fun _ => rfl⟩, rfl⟩
  | cons d ds ih =>
    intro pre ha hs
    have hr : m.b.read (.loc b pre.length) = .ok (nextOf d 0) := ha.read (by simp)
    have ha' : ArrIs m.b b (pre ++ [nextOf d 0] ++ ds.map (fun c => nextOf c 0) ++ post) := by
      simpa using ha
    by_cases hd : d = []
    · subst hd
      obtain ⟨h, p, n, c, ds', e1, e2, e3⟩ := ih ha' fun x hx => hs x (by simp [hx])
      refine ⟨h, p, n, c, ds', ?_, e2, by simpa using e3⟩
      simp only [List.length_append, List.length_cons, List.length_nil, Nat.zero_add] at e1
      simp only [nextBucket, List.length_cons, hr, Exec.ok_bind, nextOf_nil, if_true, Ptr.next, e1]
    · have hseg := hs d (by simp)
      have h0 : nextOf d 0 ≠ 0 := fun e => hd (hseg.nextOf_ne.1 e)
      refine ⟨nextOf d 0, .loc b (pre.length + 1), ds.length, d, ds, ?_,
        ⟨⟨pre ++ [nextOf d 0], by simp, ha'⟩, rfl, rfl, hseg, fun x hx => hs x (by simp [hx]),
          fun h => absurd h hd⟩, by simp⟩
      simp only [nextBucket, List.length_cons, hr, Exec.ok_bind, if_neg h0, Ptr.next]

theorem IterAt.next {b : Nat} {post : List Nat} {it : HIter} {c : List (Nat × K × V)}
    {ds : List (List (Nat × K × V))} (h : IterAt m b post it c ds) :
    ∃ it' c' ds', it.next m = .ok ((c ++ ds.flatten).head?.map Prod.fst, it') ∧
      IterAt m b post it' c' ds' ∧ c' ++ ds'.flatten = (c ++ ds.flatten).tail := by
  cases c with
  | nil =>
    have := h.done rfl
    subst this
    refine ⟨it, [], [], ?_, h, rfl⟩
    have hn := h.node
    simp only [nextOf_nil] at hn
    simp [HIter.next, hn]
  | cons n c =>
    have hnode := (HSeg.node (a := []) h.seg).2
    have hn : it.node = n.1 := h.node
    have hn0 : n.1 ≠ 0 := h.seg.1
    by_cases hc : c = []
    · subst hc
      obtain ⟨pre, hp, ha⟩ := h.at'
      obtain ⟨hd, p, k, c', ds', e1, e2, e3⟩ := nextBucket_ok ha h.segs
      refine ⟨⟨p, k, hd⟩, c', ds', ?_, e2, ?_⟩
      · simp only [HIter.next, hn, if_neg hn0, hnode, Exec.ok_bind, nextOf_nil, if_true, hp, h.rest,
          e1, List.cons_append, List.head?_cons, Option.map_some]
      · simp [e3]
    · have hseg := h.seg.2.2
      have h0 : nextOf c 0 ≠ 0 := fun e => hc (hseg.nextOf_ne.1 e)
      refine ⟨{ it with node := nextOf c 0 }, c, ds, ?_, ⟨h.at', h.rest, rfl, hseg, h.segs,
        fun e => absurd e hc⟩, by simp⟩
      simp only [HIter.next, hn, if_neg hn0, hnode, Exec.ok_bind, if_neg h0, List.cons_append,
        List.head?_cons, Option.map_some]

theorem IterAt.run {b : Nat} {post : List Nat} : ∀ (k : Nat) {it : HIter} {c : List (Nat × K × V)}
    {ds : List (List (Nat × K × V))}, IterAt m b post it c ds →
    ∃ it' c' ds', it.run m k =
        .ok ((List.range k).map fun i => ((c ++ ds.flatten).map Prod.snd)[i]?, it') ∧
      IterAt m b post it' c' ds' ∧ c' ++ ds'.flatten = (c ++ ds.flatten).drop k := by
  intro k
  induction k with
  | zero => intro it c ds h; exact ⟨it, c, ds, rfl, h, rfl⟩
  | succ k ih =>
    intro it c ds h
    obtain ⟨it1, c1, ds1, e1, e2, e3⟩ := h.next
    obtain ⟨it2, c2, ds2, f1, f2, f3⟩ := ih e2
    refine ⟨it2, c2, ds2, ?_, f2, by rw [f3, e3, List.drop_tail]⟩
    rw [e3] at f1
    have hr : (List.range (k + 1)).map (fun i => ((c ++ ds.flatten).map Prod.snd)[i]?) =
        ((c ++ ds.flatten).map Prod.snd)[0]? ::
          (List.range k).map fun i => ((c ++ ds.flatten).tail.map Prod.snd)[i]? := by
      rw [List.range_succ_eq_map, List.map_cons, List.map_map]
      congr 1
      refine List.map_congr_left fun i _ => ?_
      cases c ++ ds.flatten <;> simp
    rw [hr]
    cases c with
    | nil =>
      have := h.done rfl
      subst this
      simp only [List.flatten_nil, List.append_nil, List.head?_nil, Option.map_none] at e1
      simp only [HIter.run, e1, Exec.ok_bind, f1]
      rfl
    | cons n c =>
      have hnode := (HSeg.node (a := []) h.seg).2
      simp only [List.cons_append, List.head?_cons, Option.map_some] at e1
      simp only [HIter.run, e1, Exec.ok_bind, hnode, f1]
      rfl

/-- The first iterator. -/
theorem HCore.iter (h : HCore ok E Inv w wn m t bl cs) :
    ∃ it c ds, t.iter m = .ok it ∧ IterAt m (curArr E bl) [sentinel] it c ds ∧
      c ++ ds.flatten = cs.flatten := by
  obtain ⟨hd, p, n, c, ds, e1, e2, e3⟩ := nextBucket_ok (m := m) (b := curArr E bl)
    (post := [sentinel]) (ds := cs) (pre := []) (by simpa [heads] using h.arr) h.chains
  refine ⟨⟨p, n, hd⟩, c, ds, ?_, e2, e3.symm⟩
  rw [List.length_nil, h.len] at e1
  simp only [HTable.iter, h.start, e1, Exec.ok_bind]

theorem IterAt.frame {b : Nat} {post : List Nat} {it : HIter} {c : List (Nat × K × V)}
    {ds : List (List (Nat × K × V))} (h : IterAt m b post it c ds) (hb : m'.b = m.b)
    (hn : ∀ n ∈ c ++ ds.flatten, m'.n.node n.1 = m.n.node n.1) : IterAt m' b post it c ds where
  at' := by rw [hb]; exact h.at'
  rest := h.rest
  node := h.node
  seg := h.seg.frame fun n hm => hn n (by simp [hm])
  segs := fun d hd => (h.segs d hd).frame fun n hm =>
    hn n (List.mem_append.2 (.inr (List.mem_flatten.2 ⟨d, hd, hm⟩)))
  done := h.done

/-- A loop over `iter_mut`. -/
theorem IterAt.updateAll {b : Nat} {post : List Nat} (f : K → V → V) : ∀ (fuel : Nat) {it : HIter}
    {c : List (Nat × K × V)} {ds : List (List (Nat × K × V))} {m : HMem K V},
    IterAt m b post it c ds → ((c ++ ds.flatten).map Prod.fst).Nodup →
    (c ++ ds.flatten).length < fuel →
    ∃ m', it.updateAll f fuel m = .ok m' ∧ NSame m.n m'.n ∧ m'.b = m.b ∧
      (∀ q, q ∉ (c ++ ds.flatten).map Prod.fst → m'.n.node q = m.n.node q) ∧
      ∀ n ∈ c ++ ds.flatten, ∀ x, m.n.node n.1 = some (some ⟨n.2.1, n.2.2, x⟩) →
        m'.n.node n.1 = some (some ⟨n.2.1, f n.2.1 n.2.2, x⟩) := by
  intro fuel
  induction fuel with
  | zero => intro _ _ _ _ _ _ h; omega
  | succ fuel ih =>
    intro it c ds m h hnd hf
    obtain ⟨it1, c1, ds1, e1, e2, e3⟩ := h.next
    cases c with
    | nil =>
      have := h.done rfl
      subst this
      refine ⟨m, ?_, NSame.refl _, rfl, fun _ _ => rfl, by simp⟩
      simp only [HIter.updateAll, e1, Exec.ok_bind]
      rfl
    | cons n c =>
      rw [List.cons_append, List.tail_cons] at e3
      rw [List.cons_append, List.map_cons, List.nodup_cons] at hnd
      have hnode := (HSeg.node (a := []) h.seg).2
      obtain ⟨m1, g1, g2, g3, g4⟩ := HMem.modify_ok hnode (fun c => { c with val := f c.key c.val })
      have hne : ∀ x ∈ c ++ ds.flatten, x.1 ≠ n.1 :=
        fun x hx e => hnd.1 (e ▸ List.mem_map_of_mem hx)
      obtain ⟨m2, k1, k2, k3, k4, k5⟩ := ih (it := it1) (c := c1) (ds := ds1) (m := m1)
        (e2.frame g2 fun x hx => by
          rw [g3, Function.update_of_ne (hne x (by rw [← e3]; exact hx))])
        (by rw [e3]; exact hnd.2) (by rw [e3]; simp at hf ⊢; omega)
      rw [e3] at k4 k5
      refine ⟨m2, ?_, g4.trans k2, by rw [k3, g2], ?_, ?_⟩
      · simp only [HIter.updateAll, e1, Exec.ok_bind, List.cons_append, List.head?_cons,
          Option.map_some, g1, k1]
      · intro q hq
        simp only [List.cons_append, List.map_cons, List.mem_cons, not_or] at hq
        rw [k4 q hq.2, g3, Function.update_of_ne hq.1]
      · intro x hx y hy
        rw [List.cons_append] at hx
        rcases List.mem_cons.1 hx with rfl | hx
        · rw [k4 _ hnd.1, g3, Function.update_self]
          simp only [HMem.node, NMem.get, hy, Exec.ok_bind, Except.ok.injEq] at hnode
          rw [← hnode]
        · refine k5 x hx y ?_
          rw [g3, Function.update_of_ne (hne x hx)]
          exact hy

/-- The chains after replacing every value. -/
def mapVals (f : K → V → V) (cs : List (List (Nat × K × V))) : List (List (Nat × K × V)) :=
  cs.map fun c => c.map fun n => (n.1, n.2.1, f n.2.1 n.2.2)

theorem nextOf_mapVals (f : K → V → V) (c : List (Nat × K × V)) (e : Nat) :
    nextOf (c.map fun n => (n.1, n.2.1, f n.2.1 n.2.2)) e = nextOf c e := by
  cases c <;> rfl

theorem HSeg.mapVals {f : K → V → V} {e : Nat} : ∀ {c : List (Nat × K × V)}, HSeg m.n c e →
    (∀ n ∈ c, ∀ x, m.n.node n.1 = some (some ⟨n.2.1, n.2.2, x⟩) →
      m'.n.node n.1 = some (some ⟨n.2.1, f n.2.1 n.2.2, x⟩)) →
    HSeg m'.n (c.map fun n => (n.1, n.2.1, f n.2.1 n.2.2)) e := by
  intro c
  induction c with
  | nil => intros; trivial
  | cons n c ih =>
    intro h hf
    refine ⟨h.1, ?_, ih h.2.2 fun x hx => hf x (by simp [hx])⟩
    rw [nextOf_mapVals]
    exact hf n (by simp) _ h.2.1

theorem mapVals_flatten (f : K → V → V) (cs : List (List (Nat × K × V))) :
    (mapVals f cs).flatten = cs.flatten.map fun n => (n.1, n.2.1, f n.2.1 n.2.2) := by
  simp [mapVals, List.map_flatten]

/-- `for (k, v) in table.iter_mut() { *v = f(k, *v) }` replaces every value, once. -/
theorem HRep.updateAll (L : HLaw E Inv) (h : HRep ok E Inv w wn m t peak bl cs) (f : K → V → V) :
    ∃ it m', t.iter m = .ok it ∧ it.updateAll f (t.count + 1) m = .ok m' ∧
      HRep ok E Inv w wn m' t peak bl (mapVals f cs) ∧
      ents (mapVals f cs) = (ents cs).map (fun p => (p.1, f p.1 p.2)) := by
  obtain ⟨it, c, ds, e1, e2, e3⟩ := h.core.iter
  obtain ⟨m', f1, f2, f3, f4, f5⟩ := e2.updateAll f (t.count + 1) (by rw [e3]; exact h.core.nodup)
    (by rw [e3, h.count]; omega)
  rw [e3] at f4 f5
  have haddr : addrs (mapVals f cs) = addrs cs := by
    rw [addrs, mapVals_flatten, List.map_map]; rfl
  have hents : ents (mapVals f cs) = (ents cs).map (fun p => (p.1, f p.1 p.2)) := by
    rw [ents, mapVals_flatten, ents, List.map_map, List.map_map]; rfl
  have hheads : heads (mapVals f cs) = heads cs := by
    simp [heads, mapVals, nextOf_mapVals]
  refine ⟨it, m', e1, f1, h.setCore ?_ rfl rfl h.peak rfl
    (by rw [mapVals_flatten, List.length_map]; exact h.count), hents⟩
  exact
  { len := by rw [mapVals, List.length_map]; exact h.core.len
    pos := h.core.pos
    chains := by
      intro d hd
      obtain ⟨d', hd', rfl⟩ := List.mem_map.1 hd
      exact (h.core.chains d' hd').mapVals fun n hn x hx =>
        f5 n (List.mem_flatten.2 ⟨d', hd', hn⟩) x hx
    nodup := by rw [haddr]; exact h.core.nodup
    homes := by
      intro ho i d hd n hn
      rw [mapVals, List.getElem?_map] at hd
      cases hc : cs[i]? with
      | none => rw [hc] at hd; cases hd
      | some d' =>
        rw [hc] at hd
        simp only [Option.map_some, Option.some.injEq] at hd
        subst hd
        obtain ⟨n', hn', rfl⟩ := List.mem_map.1 hn
        exact h.core.homes ho i d' hc n' hn'
    dist := by
      intro ho
      rw [hents]
      unfold Distinct
      rw [List.pairwise_map]
      exact h.core.dist ho
    fits := by rw [mapVals_flatten, List.length_map]; exact h.core.fits
    inv := by rw [haddr]; exact L.frame h.core.inv f2.node f2.link f2.reg
    start := h.core.start
    arr := by rw [hheads, f3]; exact h.core.arr
    blNodup := h.core.blNodup
    blNew := by rw [f3]; exact h.core.blNew
    out := by rw [f3]; exact h.core.out
    stat := h.core.stat
    empty := fun hb => by rw [h.core.empty hb]; rfl
    keep := by
      intro q hq
      obtain ⟨h1, h2⟩ := h.core.keep q hq
      exact ⟨by rw [haddr]; exact h1, by rw [f4 q h1]; exact h2⟩ }

/-- Converting an iterator to its compatible form and back. -/
theorem IterAt.compat {b : Nat} {post : List Nat} {it : HIter} {c : List (Nat × K × V)}
    {ds : List (List (Nat × K × V))} (h : IterAt m b post it c ds) :
    ∃ s e, it.intoCompat m = .ok (s, e) ∧ HIter.fromCompat s e = .ok it ∧ s.node = nextOf c 0 ∧
      e.node = 0 := by
  obtain ⟨pre, hp, ha⟩ := h.at'
  have hadd := ha.ptrAdd (i := pre.length) (n := ds.length) (by simp)
  refine ⟨⟨it.node, it.bucket⟩, ⟨0, .loc b (pre.length + ds.length)⟩, ?_, ?_, h.node, rfl⟩
  · simp only [HIter.intoCompat, hp, h.rest, hadd, Exec.ok_bind]
  · have hoff : (Ptr.loc b (pre.length + ds.length)).offsetFrom (.loc b pre.length) =
        .ok ds.length := by simp [Ptr.offsetFrom]
    simp only [HIter.fromCompat, hp, hoff, Exec.ok_bind]
    rw [← hp, ← h.rest]

end Verif
