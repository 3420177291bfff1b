import Verif.HashTable.Inv
import Verif.Spec.HashTable

/-! Every call of a hash map, and every history of calls, refines a finite map. -/

set_option autoImplicit false

namespace Verif
open Spec

variable {K V σ : Type} {ok : Prop} {E : HEnv K V σ} {Inv : σ → HNMem K V → List Nat → Prop} {w : World Nat}
  {wn : Nat → Option (Option (HCell K V))} {m m' : HMem K V} {t t' : HTable σ} {bl : List Nat}
  {cs cs' : List (List (Nat × K × V))} {peak : Nat}

/-- An entry present before and after a call is in the same node, under the same key. -/
def Stable (E : HEnv K V σ) (cs cs' : List (List (Nat × K × V))) : Prop :=
  ∀ n ∈ cs.flatten, ∀ n' ∈ cs'.flatten, E.eq n.2.1 n'.2.1 = true → n.1 = n'.1 ∧ n.2.1 = n'.2.1

theorem Stable.of (he : PartialEquiv E.eq) (hd : Distinct E.eq (ents cs))
    (h : ∀ n' ∈ cs'.flatten, (∃ n ∈ cs.flatten, n.1 = n'.1 ∧ n.2.1 = n'.2.1) ∨
      lookup E.eq (ents cs) n'.2.1 = none) : Stable E cs cs' := by
  intro n hm n' hm' hk
  rcases h n' hm' with ⟨n0, h0, h1, h2⟩ | h
  · have hd' : Distinct E.eq (cs.flatten.map fun n => (n.2.1, n.1, n.2.2)) := by
      unfold ents Distinct at hd
      unfold Distinct
      rw [List.pairwise_map] at hd ⊢
      exact hd
    have := hd'.eq_of he (List.mem_map_of_mem hm) (List.mem_map_of_mem h0) (by
      rw [show n0.2.1 = _ from h2]; exact hk)
    simp only [Prod.mk.injEq] at this
    exact ⟨this.2.1.trans h1, this.1.trans h2⟩
  · have := lookup_none.1 h n.2 (List.mem_map_of_mem hm)
    rw [hk] at this
    cases this

theorem Stable.refl_of (he : PartialEquiv E.eq) (h : HCore True E Inv w wn m t bl cs)
    (hp : cs'.flatten.Perm cs.flatten) : Stable E cs cs' :=
  Stable.of he h.distinct fun n' hn' => .inl ⟨n', hp.mem_iff.1 hn', rfl, rfl⟩

variable {P : Nat → Nat → Nat → Prop} {most : Nat}

theorem HRepP.setCore {peak' : Nat} (h : HRepP P ok E Inv w wn m t peak bl cs)
    (hc : HCore ok E Inv w wn m' t' bl cs') (hbc : t'.bucketCount = t.bucketCount)
    (hnr : t'.nextResize = t.nextResize) (hcount : t'.count ≤ peak) (hp : peak' = peak)
    (hlen : t'.count = cs'.flatten.length) :
    HRepP P ok E Inv w wn m' t' peak' bl cs' := by
  subst hp
  exact ⟨hc, hlen, by rw [hbc, hnr]; exact h.policy, hcount, by rw [hbc]; exact h.arrs⟩

/-- Removing a node from its chain. -/
theorem HCore.removeAt (L : HLaw E Inv) {l1 l2 : List (List (Nat × K × V))}
    {c1 c2 : List (Nat × K × V)} {n : Nat × K × V}
    (h : HCore ok E Inv w wn m t bl (l1 ++ (c1 ++ n :: c2) :: l2)) :
    ∃ m1 a m2, (slotAfter (.bucket (.loc (curArr E bl) l1.length)) c1).write E m (nextOf c2 0) =
        .ok m1 ∧ E.A.dealloc n.1 E.size E.align t.al m1.n = .ok (a, m2) ∧
      HCore ok E Inv w wn { m1 with n := m2 } { t with al := a, count := t.count - 1 } bl
        (l1 ++ (c1 ++ c2) :: l2) ∧ m2.dropped = m.n.dropped ∧ t.count ≠ 0 := by
  have hbl : bl ≠ [] := by
    intro hb
    have := h.empty hb
    cases l1 with
    | nil => simp at this
    | cons a l => simp at this
  have hseg := h.chains _ (show c1 ++ n :: c2 ∈ l1 ++ (c1 ++ n :: c2) :: l2 by simp)
  have hnd : ((c1 ++ n :: c2).map Prod.fst).Nodup := by
    have := h.nodup
    simp only [addrs, List.flatten_append, List.flatten_cons, List.map_append] at this
    rw [List.nodup_append, List.nodup_append] at this
    rw [List.map_append]
    exact this.2.1.1
  have hnd' : n.1 ∉ (c1 ++ c2).map Prod.fst ∧ ((c1 ++ c2).map Prod.fst).Nodup := by
    rw [List.map_append, List.map_cons] at hnd
    have := (List.nodup_middle.1 hnd)
    rw [List.nodup_cons, ← List.map_append] at this
    exact this
  have hne : ∀ x ∈ c1 ++ c2, x.1 ≠ n.1 := fun x hx e => hnd'.1 (e ▸ List.mem_map_of_mem hx)
  have hrest : HSeg m.n c2 0 := (HSeg.append.1 hseg).2.2.2
  -- the write
  have hw : ∃ m1, (slotAfter (.bucket (.loc (curArr E bl) l1.length)) c1).write E m (nextOf c2 0) =
        .ok m1 ∧ NSame m.n m1.n ∧ HSeg m1.n (c1 ++ c2) 0 ∧
        (∀ q, q ∉ c1.map Prod.fst → m1.n.node q = m.n.node q) ∧
        ArrIs m1.b (curArr E bl) (heads (l1 ++ (c1 ++ c2) :: l2)) ∧
        ∀ b, b ≠ curArr E bl → m1.b.live b = m.b.live b := by
    rcases List.eq_nil_or_concat c1 with rfl | ⟨c0, x, rfl⟩
    · obtain ⟨m1, f1, f2, f3, f4⟩ := h.arr.write (E := E) (curArr_ne h hbl) (i := l1.length)
        (by rw [heads_length]; simp) (nextOf c2 0)
      rw [heads_set] at f3
      refine ⟨m1, ?_, by rw [f2]; exact NSame.refl _, by rw [f2]; exact hrest,
        fun _ _ => by rw [f2], f3, f4⟩
      simpa [slotAfter, HSlot.write] using f1
    · rw [List.concat_eq_append] at *
      have hseg' : HSeg m.n (c0 ++ x :: (n :: c2)) 0 := by simpa using hseg
      obtain ⟨m1, f1, f2, f3, f4⟩ := HMem.modify_ok hseg'.node.2 (fun c => { c with next := nextOf c2 0 })
      have hx0 : ∀ y ∈ c0, y.1 ≠ x.1 := by
        intro y hy e
        have h1 := hnd'.2
        rw [List.append_assoc, List.map_append, List.nodup_append] at h1
        exact h1.2.2 y.1 (List.mem_map_of_mem hy) x.1 (by simp) e
      have hx2 : ∀ y ∈ c2, y.1 ≠ x.1 := by
        intro y hy e
        have h1 := hnd'.2
        rw [List.append_assoc, List.map_append, List.nodup_append] at h1
        have h2 := h1.2.1
        rw [List.singleton_append, List.map_cons, List.nodup_cons] at h2
        exact h2.1 (e ▸ List.mem_map_of_mem hy)
      refine ⟨m1, ?_, f4, ?_, ?_, ?_, fun _ _ => by rw [f2]⟩
      · simpa [slotAfter, HSlot.write] using f1
      · have h0 := HSeg.append.1 hseg'
        rw [List.append_assoc, HSeg.append]
        refine ⟨?_, h0.2.1, ?_, hrest.frame fun y hy => ?_⟩
        · refine HSeg.frame (m := m.n) ?_ fun y hy => ?_
          · exact h0.1
          · rw [f3, Function.update_of_ne (hx0 y hy)]
        · rw [f3, Function.update_self]; rfl
        · rw [f3, Function.update_of_ne (hx2 y hy)]
      · intro q hq
        rw [f3, Function.update_of_ne]
        rintro rfl
        exact hq (by simp)
      · rw [f2, ← heads_set l1 l2 (c0 ++ [x] ++ n :: c2)]
        have e : nextOf (c0 ++ [x] ++ c2) 0 = nextOf (c0 ++ [x] ++ n :: c2) 0 := by
          rw [List.append_assoc, List.append_assoc, nextOf_append, nextOf_append c0]; rfl
        rw [e, heads_set]
        exact h.arr
  obtain ⟨m1, e1, e2, e3, e4, e5, e6⟩ := hw
  have haddr : (addrs (l1 ++ (c1 ++ n :: c2) :: l2)).Perm
      (n.1 :: addrs (l1 ++ (c1 ++ c2) :: l2)) := by
    simp only [addrs, List.flatten_append, List.flatten_cons, List.map_append, List.map_cons,
      List.cons_append, List.append_assoc]
    rw [← List.append_assoc, ← List.append_assoc (List.map Prod.fst l1.flatten)]
    exact List.perm_middle
  obtain ⟨a, m2, f1, f2, f3, f4⟩ := L.dealloc (p := n.1)
    (L.frame h.inv e2.node e2.link e2.reg) (haddr.mem_iff.2 (by simp))
  have hcount : (l1 ++ (c1 ++ c2) :: l2).flatten.length + 1 ≤ t.count := by
    have := h.fits
    simp only [List.flatten_append, List.flatten_cons, List.length_append, List.length_cons]
      at this ⊢
    omega
  refine ⟨m1, a, m2, e1, f1, ?_, by rw [f3, e2.dropped], by omega⟩
  refine h.put rfl rfl ?_ ?_ ?_ hnd'.2 ?_ ?_ ?_ ?_ e5 e6 (.inl hbl)
  · refine e3.frame fun x hx => ?_
    simp only [f2, Function.update_of_ne (hne x hx)]
  · intro q hq _
    simp only [List.map_append, List.map_cons, List.mem_append, List.mem_cons, not_or] at hq
    simp only [f2, Function.update_of_ne hq.2.1]
    exact e4 q hq.1
  · intro q hq
    left
    simp only [List.map_append, List.map_cons, List.mem_append, List.mem_cons] at hq ⊢
    tauto
  · intro ho x hx
    refine (h.homes ho).mid x ?_
    simp only [List.mem_append, List.mem_cons] at hx ⊢
    tauto
  · intro ho
    refine List.Pairwise.sublist ?_ (h.dist ho)
    unfold ents
    refine List.Sublist.map _ ?_
    simp only [List.flatten_append, List.flatten_cons]
    refine List.Sublist.append (List.Sublist.refl _) (List.Sublist.append ?_ (List.Sublist.refl _))
    exact List.Sublist.append (List.Sublist.refl _) (List.sublist_cons_self _ _)
  · simp only; omega
  · refine L.perm f4 ?_
    have := haddr.erase n.1
    simpa using this

/-- The table just before a new node is added. -/
theorem HRepP.beforeNew (hP : PolicyLaw P most) (L : HLaw E Inv) (he : ok → PartialEquiv E.eq)
    (h : HRepP P ok E Inv w wn m t peak bl cs) {k : K} (hmax : t.count < most) {target : Ptr}
    (htgt : t.bucketForKey E k m = .ok target) :
    ∃ r nr, getRehashRequired t.nextResize t.bucketCount t.count 1 = .ok (r, nr) ∧
      P (r.getD t.bucketCount) nr (max peak (t.count + 1)) ∧
      ∃ tgt t1 m1 bl1 cs1,
      (match r with
        | some bc => do
          let x ← HTable.rehash E { t with nextResize := nr } bc m
          let target ← x.1.bucketForKey E k x.2
          .ok (target, x.1, x.2)
        | none => .ok (target, { t with nextResize := nr }, m)) = (.ok (tgt, t1, m1) : Exec _) ∧
      HCore ok E Inv w wn m1 t1 bl1 cs1 ∧ t1.bucketForKey E k m1 = .ok tgt ∧
      cs1.flatten.Perm cs.flatten ∧ bl <:+ bl1 ∧ bl1 ≠ [] ∧ t1.bucketCount = r.getD t.bucketCount ∧
      t1.nextResize = nr ∧ t1.count = t.count ∧ m1.n.dropped = m.n.dropped ∧
      (∀ q, m1.n.node q = none → m.n.node q = none) ∧ t1.bucketCount ≠ 1 ∧
      t.bucketCount ≤ t1.bucketCount ∧ (cs1 = cs ∨ t.bucketCount < t1.bucketCount) := by
  obtain ⟨r, nr, p1, p2, p3, p4⟩ := hP h.policy h.peak hmax
  refine ⟨r, nr, p1, p2, ?_⟩
  have hc0 : HCore ok E Inv w wn m { t with nextResize := nr } bl cs :=
    ⟨h.core.len, h.core.pos, h.core.chains, h.core.nodup, h.core.homes, h.core.dist,
      h.core.fits, h.core.inv, h.core.start, h.core.arr, h.core.blNodup, h.core.blNew,
      h.core.out, h.core.stat, h.core.empty, h.core.keep⟩
  cases r with
  | none =>
    have hbc := p3 rfl
    exact ⟨target, _, m, bl, cs, rfl, hc0, htgt, .refl _, List.suffix_refl _,
      fun hb => by have := h.arrs.1 hb; omega, rfl, rfl, rfl, rfl, fun _ hq => hq,
      by simp only; omega, by simp, .inl rfl⟩
  | some b =>
    have hlt := p4 b rfl
    have hpos := h.core.pos
    obtain ⟨t1, m1, nb, cs1, e1, e2, e3, e4, e5, e6, e7, e8⟩ := hc0.rehash L he (bc := b) (by omega)
    obtain ⟨l1, c, l2, rfl, _, g2, _⟩ := e2.search k
    refine ⟨_, t1, m1, nb :: bl, _, ?_, e2, g2, e3, List.suffix_cons _ _, by simp, e4, e6, e5, e7,
      e8, by omega, by omega, .inr (by omega)⟩
    simp only [e1, Exec.ok_bind, g2]

/-- `insert_impl` for a key that is not present. -/
theorem HRepP.insertImpl (hP : PolicyLaw P most) (L : HLaw E Inv) (he : ok → PartialEquiv E.eq)
    (h : HRepP P ok E Inv w wn m t peak bl cs) {k : K} {v : V} (hk : ok → lookup E.eq (ents cs) k = none)
    (hmax : t.count < most) {target : Ptr} (htgt : t.bucketForKey E k m = .ok target) :
    ∃ p t' m' bl' cs', t.insertImpl E target k v m = .ok (p, t', m') ∧
      HRepP P ok E Inv w wn m' t' (max peak (t.count + 1)) bl' cs' ∧ bl <:+ bl' ∧ bl' ≠ [] ∧
      cs'.flatten.Perm ((p, k, v) :: cs.flatten) ∧ m.n.node p = none ∧
      m'.n.dropped = m.n.dropped ∧ (∃ x, m'.node p = .ok ⟨k, v, x⟩) ∧
      t'.bucketCount ≠ 1 ∧ t.bucketCount ≤ t'.bucketCount ∧
      (t'.bucketCount = t.bucketCount →
        ∃ l1 l2, ents cs = l1 ++ l2 ∧ ents cs' = l1 ++ (k, v) :: l2) := by
  obtain ⟨r, nr, p1, p2, hpre⟩ := h.beforeNew hP L he (k := k) hmax htgt
  obtain ⟨tgt, t1, m1, bl1, cs1, e1, e2, e3, e4, e5, e6, e7, e8, e9, e10, e11, e12, e13, e14⟩ := hpre
  obtain ⟨l1, c, l2, rfl, g1, g2, g3, _⟩ := e2.search k
  rw [e3] at g2
  obtain rfl : tgt = _ := by simpa using g2
  have hk1 : ok → lookup E.eq (ents (l1 ++ c :: l2)) k = none := fun ho =>
    (lookup_perm (he ho) (e4.map Prod.snd) (e2.dist ho) k).trans (hk ho)
  obtain ⟨p, a, n, n', m2, f1, f2, f3, f4, f5, f6, f7, f8⟩ := e2.push L he (v := v) g1 hk1 e6
  refine ⟨p, _, m2, bl1, _, ?_, ⟨f5, ?_, ?_, ?_, ⟨fun hb => absurd hb e6, fun hb => absurd hb e12⟩⟩, e5, e6, ?_, e11 p f6,
    by rw [f7, e10], ⟨_, f8⟩, e12, e13, ?_⟩
  · cases r with
    | none =>
      simp only [Except.ok.injEq, Prod.mk.injEq] at e1
      obtain ⟨rfl, rfl, rfl⟩ := e1
      simp only [HTable.insertImpl, p1, Exec.ok_bind, f1, f2, f3, f4]
    | some b =>
      dsimp only at e1
      simp only [HTable.insertImpl, p1, Exec.ok_bind, e1, f1, f2, f3, f4]
  · have := e4.length_eq
    simp only [List.flatten_append, List.flatten_cons, List.length_append, List.length_cons] at this ⊢
    rw [e9, h.count]; omega
  · rw [show t1.bucketCount = _ from e7, show t1.nextResize = _ from e8]
    exact p2
  · simp only [e9]; omega
  · refine List.Perm.trans ?_ (e4.cons _)
    simp only [List.flatten_append, List.flatten_cons, List.cons_append]
    exact List.perm_middle
  · intro hbc
    rcases e14 with rfl | h14
    · exact ⟨l1.flatten.map Prod.snd, (c :: l2).flatten.map Prod.snd, by simp [ents], by simp [ents]⟩
    · exact absurd hbc (Nat.ne_of_gt h14)

theorem PolicyAt.mono {b r p b' r' p' : Nat} (h : PolicyAt b r p) (h' : PolicyAt b' r' p')
    (hp : p ≤ p') : b ≤ b' := by
  have hs : stages.all (fun g => decide (0 < g.lo) && decide (1 ≤ g.buckets) &&
      stages.all fun g' => decide (g'.hi ≤ g.lo) || decide (g.buckets ≤ g'.buckets)) = true := by
    decide +kernel
  have hs' := List.all_eq_true.1 hs
  simp only [Bool.and_eq_true, decide_eq_true_eq, List.all_eq_true, Bool.or_eq_true] at hs'
  rcases h with ⟨rfl, rfl, rfl⟩ | ⟨g, hg, rfl, rfl, h1, h2⟩ <;>
    rcases h' with ⟨_, rfl, rfl⟩ | ⟨g', hg', rfl, rfl, h1', h2'⟩
  · exact Nat.le_refl _
  · exact (hs' g' hg').1.2
  · have := (hs' g hg).1.1; omega
  · rcases (hs' g hg).2 g' hg' with h | h
    · omega
    · exact h

theorem PolicyAt.one {resize peak : Nat} (h : PolicyAt 1 resize peak) : peak = 0 := by
  rcases h with ⟨rfl, _, _⟩ | ⟨g, hg, h1, _⟩
  · rfl
  · have := (stage_facts hg).1
    omega

/-- Freeing all nodes, whatever the number of entries the table believes to have. -/
theorem HCore.freeBuckets (L : HLaw E Inv) (h : HCore ok E Inv w wn m t bl cs)
    (h1bl : t.bucketCount = 1 → bl = []) :
    ∃ a m', t.freeBuckets E m = .ok ({ t with al := a }, m') ∧
      HCore ok E Inv w wn m' { t with al := a, count := 0 } bl (List.replicate t.bucketCount []) ∧
      m'.n.dropped.Perm (m.n.dropped ++ (contents (ents cs)).filter E.needs) := by
  have hcont : ∀ l : List (Nat × K × V), contents (l.map Prod.snd) = parts l := by
    intro l; simp [contents, parts, List.flatMap_map]
  have hflat : ∀ n, (List.replicate n ([] : List (Nat × K × V))).flatten = [] := by simp
  by_cases h1 : 1 < t.bucketCount
  · have hbl : bl ≠ [] := fun hb => by
      have hl := h.len
      rw [h.empty hb] at hl
      simp at hl
      omega
    have harr := h.arr
    obtain ⟨a, m1, g1, g2, g3, g4, g5⟩ := freeChains_ok L (E := E) (fuel := t.count + 1)
      (b := curArr E bl) (post := [sentinel]) (cs := cs) (a := t.al) (m := m) (ps := []) (pre := [])
      h.chains h.nodup (by have := h.fits; omega)
      (by rw [List.append_nil]; exact h.inv) (by simpa [heads] using h.arr)
    rw [List.length_nil, h.len] at g1
    obtain ⟨m2, k1, k2, k3, k4⟩ := ArrIs.fill (E := E) (m := m1) (b := curArr E bl)
      (hs := cs.map fun c => nextOf c 0) (s := sentinel) (by rw [g3]; exact h.arr)
      (curArr_ne h hbl)
    rw [List.length_map, h.len] at k1
    refine ⟨a, m2, ?_, ?_, ?_⟩
    · simp only [HTable.freeBuckets, if_pos h1, h.start, g1, Exec.ok_bind, k1]
    · exact
      { len := by simp
        pos := h.pos
        chains := by
          intro c hc
          rw [List.eq_of_mem_replicate hc]
          trivial
        nodup := by rw [addrs, hflat]; simp
        homes := by
          intro _ i c hc
          rw [List.eq_of_mem_replicate (List.mem_of_getElem? hc)]
          simp
        dist := fun _ => by rw [ents, hflat]; exact List.Pairwise.nil
        fits := by rw [hflat]; exact Nat.le_refl _
        inv := by rw [addrs, hflat, k2]; exact g2
        start := h.start
        arr := by
          rw [List.length_map, h.len] at k3
          simpa [heads] using k3
        blNodup := h.blNodup
        blNew := by
          intro b hb
          refine ⟨(h.blNew b hb).1, ?_⟩
          by_cases hbc : b = curArr E bl
          · obtain ⟨blk, h1, _⟩ := k3
            rw [hbc, h1]; simp
          · rw [k4 b hbc, g3]; exact (h.blNew b hb).2
        out := by
          intro b hb
          rw [k4 b (fun e => hb (e ▸ curArr_mem hbl)), g3]
          exact h.out b hb
        stat := h.stat
        empty := fun hb => absurd hb hbl
        keep := by
          intro q hq
          obtain ⟨q1, q2⟩ := h.keep q hq
          exact ⟨by rw [addrs, hflat]; simp, by rw [k2, g4 q q1]; exact q2⟩ }
    · rw [k2, ents, hcont]; exact g5
  · have hbc : t.bucketCount = 1 := by have := h.pos; omega
    have hcs0 := h.empty (h1bl hbc)
    have hf : cs.flatten = [] := by rw [hcs0]; rfl
    have hcs : cs = List.replicate t.bucketCount [] := by rw [hcs0, hbc]; rfl
    refine ⟨t.al, m, by simp [HTable.freeBuckets, h1], ?_, by rw [ents, hf]; simp [contents]⟩
    rw [← hcs]
    exact ⟨h.len, h.pos, h.chains, h.nodup, h.homes, h.dist, by rw [hf]; exact Nat.le_refl _, h.inv,
      h.start, h.arr, h.blNodup, h.blNew, h.out, h.stat, h.empty, h.keep⟩

/-- Freeing all nodes. -/
theorem HRepP.freeBuckets (L : HLaw E Inv) (h : HRepP P ok E Inv w wn m t peak bl cs) :
    ∃ a m', t.freeBuckets E m = .ok ({ t with al := a }, m') ∧
      HCore ok E Inv w wn m' { t with al := a, count := 0 } bl (List.replicate t.bucketCount []) ∧
      m'.n.dropped.Perm (m.n.dropped ++ (contents (ents cs)).filter E.needs) :=
  h.core.freeBuckets L h.arrs.2

theorem ents_length (cs : List (List (Nat × K × V))) : (ents cs).length = cs.flatten.length := by
  rw [ents, List.length_map]

/-- What a step establishes. -/
structure HStepP (P : Nat → Nat → Nat → Prop) (E : HEnv K V σ) (Inv : σ → HNMem K V → List Nat → Prop) (w : World Nat)
    (wn : Nat → Option (Option (HCell K V))) (m : HMem K V) (peak : Nat)
    (bl : List Nat) (cs : List (List (Nat × K × V))) (s' : List (K × V)) (drops : List (K ⊕ V))
    (t' : HTable σ) (m' : HMem K V) (bl' : List Nat) (cs' : List (List (Nat × K × V))) : Prop where
  rep : HRepP P True E Inv w wn m' t' (max peak s'.length) bl' cs'
  perm : (ents cs').Perm s'
  drops : m'.n.dropped.Perm (m.n.dropped ++ drops.filter E.needs)
  stable : Stable E cs cs'
  arrays : bl <:+ bl'
  alloc : ents cs = [] → s' ≠ [] → bl' ≠ []
  /-- without a new entry the order of iteration stays -/
  shrink : s'.length ≤ (ents cs).length → cs'.length = cs.length ∧ ents cs' = s'
  /-- with a new entry it stays unless the number of buckets changes -/
  grow : ∀ n, s' = n :: ents cs → cs'.length = cs.length →
    ∃ l1 l2, ents cs = l1 ++ l2 ∧ ents cs' = l1 ++ n :: l2

theorem HRepP.same (he : PartialEquiv E.eq) (h : HRepP P True E Inv w wn m t peak bl cs) :
    HStepP P E Inv w wn m peak bl cs (ents cs) [] t m bl cs where
  rep := h.setCore h.core rfl rfl h.peak (by
    have := h.peak
    rw [h.count] at this
    rw [ents_length]; omega) h.count
  perm := .refl _
  drops := by simp
  stable := Stable.refl_of he h.core (.refl _)
  arrays := List.suffix_refl _
  alloc := fun h1 h2 => absurd h1 h2
  shrink := fun _ => ⟨rfl, rfl⟩
  grow := fun _ hn => absurd (congrArg List.length hn) (by simp)

/-- One call. -/
theorem HRepP.step (hP : PolicyLaw P most) (L : HLaw E Inv) (he : PartialEquiv E.eq) (hh : HashOk E)
    (h : HRepP P True E Inv w wn m t peak bl cs) (op : MapOp K V)
    (hmax : (op.step E.eq (ents cs)).2.length ≤ most) :
    ∃ t' m' bl' cs', t.step E op m = .ok ((op.step E.eq (ents cs)).1, t', m') ∧
      HStepP P E Inv w wn m peak bl cs (op.step E.eq (ents cs)).2 (op.drops E.eq (ents cs))
        t' m' bl' cs' := by
  have hcnt : t.count = (ents cs).length := by rw [ents_length]; exact h.count
  have hpk := h.peak
  have hmaxpk : max peak (ents cs).length = peak := by omega
  -- storing a value
  have hset : ∀ {l1 l2 : List (List (Nat × K × V))} {c1 c2 : List (Nat × K × V)}
      {n : Nat × K × V} {k : K} {m1 m2 : HMem K V} {v : V} {dr : List (K ⊕ V)},
      cs = l1 ++ (c1 ++ n :: c2) :: l2 →
      HCore True E Inv w wn m2 t bl (l1 ++ (c1 ++ (n.1, n.2.1, v) :: c2) :: l2) →
      Verif.ents (l1 ++ (c1 ++ (n.1, n.2.1, v) :: c2) :: l2) = Spec.setVal E.eq k v (ents cs) →
      m2.n.dropped.Perm (m.n.dropped ++ dr.filter E.needs) →
      HStepP P E Inv w wn m peak bl cs (Spec.setVal E.eq k v (ents cs)) dr t m2 bl
        (l1 ++ (c1 ++ (n.1, n.2.1, v) :: c2) :: l2) := by
    intro l1 l2 c1 c2 n k m1 m2 v dr hcs hc he' hd
    refine ⟨h.setCore hc rfl rfl h.peak (by simp [Spec.setVal, hmaxpk])
      (by rw [h.count, hcs]; simp), by rw [he'], hd, ?_,
      List.suffix_refl _, ?_, fun _ => ⟨by rw [hcs]; simp, he'⟩,
      fun _ hn => absurd (congrArg List.length hn) (by simp [Spec.setVal])⟩
    · refine Stable.of he h.core.distinct fun n' hn' => .inl ?_
      subst hcs
      simp only [List.flatten_append, List.flatten_cons, List.mem_append, List.mem_cons] at hn' ⊢
      rcases hn' with hn' | (hn' | rfl | hn') | hn'
      · exact ⟨n', by tauto, rfl, rfl⟩
      · exact ⟨n', by tauto, rfl, rfl⟩
      · exact ⟨n, by tauto, rfl, rfl⟩
      · exact ⟨n', by tauto, rfl, rfl⟩
      · exact ⟨n', by tauto, rfl, rfl⟩
    · intro h1 h2
      rw [h1] at h2
      exact absurd rfl h2
  -- adding an entry
  have hadd : ∀ {p : Nat} {k : K} {v : V} {t' : HTable σ} {m' m2 : HMem K V} {bl' : List Nat}
      {cs' : List (List (Nat × K × V))} {dr : List (K ⊕ V)},
      lookup E.eq (ents cs) k = none →
      HRepP P True E Inv w wn m' t' (max peak (t.count + 1)) bl' cs' → bl <:+ bl' → bl' ≠ [] →
      cs'.flatten.Perm ((p, k, v) :: cs.flatten) →
      (t'.bucketCount = t.bucketCount →
        ∃ l1 l2, ents cs = l1 ++ l2 ∧ ents cs' = l1 ++ (k, v) :: l2) →
      HCore True E Inv w wn m2 t' bl' cs' → m2.n.dropped.Perm (m.n.dropped ++ dr.filter E.needs) →
      HStepP P E Inv w wn m peak bl cs ((k, v) :: ents cs) dr t' m2 bl' cs' := by
    intro p k v t' m' m2 bl' cs' dr hl hr h1 h2 h3 ho hc hd
    refine ⟨hr.setCore hc rfl rfl hr.peak (by rw [List.length_cons, hcnt]) hr.count, h3.map _, hd, ?_, h1,
      fun _ _ => h2, fun hle => absurd hle (by simp),
      fun _ hn hlen => (List.cons.inj hn).1 ▸ ho (by rw [← hc.len, ← h.core.len, hlen])⟩
    refine Stable.of he h.core.distinct fun n' hn' => ?_
    rcases List.mem_cons.1 (h3.mem_iff.1 hn') with rfl | hn'
    · exact .inr hl
    · exact .inl ⟨n', hn', rfl, rfl⟩
  -- removing an entry
  have hrem : ∀ {l1 l2 : List (List (Nat × K × V))} {c1 c2 : List (Nat × K × V)}
      {n : Nat × K × V} {k : K} {t' : HTable σ} {m2 : HMem K V} {dr : List (K ⊕ V)},
      cs = l1 ++ (c1 ++ n :: c2) :: l2 → E.eq n.2.1 k = true →
      t'.bucketCount = t.bucketCount → t'.nextResize = t.nextResize → t'.count = t.count - 1 →
      HCore True E Inv w wn m2 t' bl (l1 ++ (c1 ++ c2) :: l2) →
      m2.n.dropped.Perm (m.n.dropped ++ dr.filter E.needs) →
      HStepP P E Inv w wn m peak bl cs (eraseKey E.eq k (ents cs)) dr t' m2 bl
        (l1 ++ (c1 ++ c2) :: l2) := by
    intro l1 l2 c1 c2 n k t' m2 dr hcs hk h1 h2 h3 hc hd
    have hle : (eraseKey E.eq k (ents cs)).length ≤ (ents cs).length := List.length_filter_le _ _
    have herase : Verif.ents (l1 ++ (c1 ++ c2) :: l2) = eraseKey E.eq k (ents cs) := by
      have hd := h.core.distinct
      rw [hcs] at hd ⊢
      rw [ents_mid] at hd
      rw [ents_mid, (setVal_mid he hd hk n.2.2).2]
      simp [ents]
    refine ⟨h.setCore hc h1 h2 (by omega) (by omega) ?_, by rw [herase], hd, ?_, List.suffix_refl _, ?_,
      fun _ => ⟨by rw [hcs]; simp, herase⟩,
      fun _ hn => absurd (congrArg List.length hn) (by rw [List.length_cons]; omega)⟩
    · rw [h3, h.count, hcs]
      simp only [List.flatten_append, List.flatten_cons, List.length_append, List.length_cons]
      omega
    · refine Stable.of he h.core.distinct fun n' hn' => .inl ⟨n', ?_, rfl, rfl⟩
      subst hcs
      simp only [List.flatten_append, List.flatten_cons, List.mem_append, List.mem_cons] at hn' ⊢
      tauto
    · intro h1 h2
      rw [h1] at h2
      exact absurd rfl h2
  -- remove_entry
  have hremove : ∀ k : K, ∃ t' m' cs', t.removeEntry E k m =
        .ok (lookup E.eq (ents cs) k, t', m') ∧
      ∀ (dr : List (K ⊕ V)) (m2 : HMem K V), m2.n.node = m'.n.node → m2.n.link = m'.n.link →
        m2.n.reg = m'.n.reg → m2.b = m'.b →
        m2.n.dropped = m'.n.dropped ++ dr.filter E.needs →
        HStepP P E Inv w wn m peak bl cs (eraseKey E.eq k (ents cs)) dr t' m2 bl cs' := by
    intro k
    obtain ⟨l1, c, l2, hcs, g1, g2, g3, hcase⟩ := h.core.locate he hh k
    rcases hcase with ⟨c1, n, c2, rfl, hk, hc1, hlu, hf⟩ | ⟨hc, hlu, hf⟩
    · have hcore := h.core
      rw [hcs] at hcore
      have hseg := hcore.chains _ (show c1 ++ n :: c2 ∈ l1 ++ (c1 ++ n :: c2) :: l2 by simp)
      have hloop := removeLoop_ok (E := E) k hseg (fuel := t.count + 1) (by
        have := hcore.fits
        simp only [List.flatten_append, List.flatten_cons, List.length_append] at this ⊢
        omega) (s := .bucket (.loc (curArr E bl) l1.length)) g3 hc1 (by
          intro x hx
          simp at hx
          subst hx
          exact hk)
      obtain ⟨m1, a, m2, e1, e2, e3, e4, e5⟩ := hcore.removeAt L
      refine ⟨{ t with al := a, count := t.count - 1 }, { m1 with n := m2 }, _, ?_,
        fun dr m3 q1 q2 q3 q4 q5 => hrem hcs hk rfl rfl rfl (e3.congr L q1 q2 q3 q4)
          (by rw [q5]; simp only [e4]; exact .refl _)⟩
      simp only [HTable.removeEntry, g2, Exec.ok_bind, hloop, nextOf_cons, if_neg hseg.node.1,
        hseg.node.2, e1, e2, if_neg e5, hlu]
    · have hseg := h.core.chains c (by rw [hcs]; simp)
      have hloop := removeLoop_ok (E := E) (m := m) k (c1 := c) (c2 := []) (by simpa using hseg)
        (fuel := t.count + 1) (by
        rw [h.count, hcs]
        simp only [List.flatten_append, List.flatten_cons, List.length_append, List.length_nil]
        omega) (s := .bucket (.loc (curArr E bl) l1.length)) (by rw [List.append_nil]; exact g3) hc (by simp)
      have her : eraseKey E.eq k (ents cs) = ents cs := by
        unfold eraseKey
        refine List.filter_eq_self.2 fun p hp => ?_
        rw [lookup_none.1 hlu p hp]; rfl
      refine ⟨t, m, cs, ?_, fun dr m3 q1 q2 q3 q4 q5 => ?_⟩
      · simp only [HTable.removeEntry, g2, Exec.ok_bind, hloop, nextOf_nil, if_true, hlu]
      · rw [her]
        refine ⟨h.setCore (h.core.congr L q1 q2 q3 q4) rfl rfl h.peak hmaxpk h.count, .refl _,
          by rw [q5], Stable.refl_of he h.core (.refl _), List.suffix_refl _, ?_,
          fun _ => ⟨rfl, rfl⟩, fun _ hn => absurd (congrArg List.length hn) (by simp)⟩
        intro h1 h2
        exact absurd h1 h2
  -- finding an entry
  have hfind : ∀ k : K,
      (∃ l1 l2 c1 c2 n b, cs = l1 ++ (c1 ++ n :: c2) :: l2 ∧ E.eq n.2.1 k = true ∧
        lookup E.eq (ents cs) k = some n.2 ∧ t.find E k m = .ok (b, some n.1) ∧
        m.node n.1 = .ok ⟨n.2.1, n.2.2, nextOf c2 0⟩) ∨
      (∃ b, lookup E.eq (ents cs) k = none ∧ t.find E k m = .ok (b, none) ∧
        t.bucketForKey E k m = .ok b) := by
    intro k
    obtain ⟨l1, c, l2, hcs, g1, g2, g3, hcase⟩ := h.core.locate he hh k
    rcases hcase with ⟨c1, n, c2, rfl, hk, hc1, hlu, hf⟩ | ⟨hc, hlu, hf⟩
    · have hcore := h.core
      rw [hcs] at hcore
      have hseg := hcore.chains _ (show c1 ++ n :: c2 ∈ l1 ++ (c1 ++ n :: c2) :: l2 by simp)
      exact .inl ⟨l1, l2, c1, c2, n, _, hcs, hk, hlu, hf, hseg.node.2⟩
    · exact .inr ⟨_, hlu, hf, g2⟩
  have hget : ∀ k : K, t.get E k m = .ok (lookup E.eq (ents cs) k) := by
    intro k
    rcases hfind k with ⟨l1, l2, c1, c2, n, b, _, _, hlu, hf, hn⟩ | ⟨b, hlu, hf, _⟩
    · simp only [HTable.get, hf, Exec.ok_bind, hn, hlu]
    · simp only [HTable.get, hf, Exec.ok_bind, hlu]
  cases op with
  | insert k v =>
    rcases hfind k with ⟨l1, l2, c1, c2, n, b, hcs, hk, hlu, hf, hn⟩ | ⟨b, hlu, hf, hb⟩
    · have hcore := h.core
      rw [hcs] at hcore
      obtain ⟨m1, e1, e2, e3, e4, e5⟩ := hcore.setVal L he hk v (fun _ => v) rfl
      rw [← hcs] at e3
      refine ⟨t, m1.dropKey E k, bl, l1 ++ (c1 ++ (n.1, n.2.1, v) :: c2) :: l2, ?_, ?_⟩
      · simp only [HTable.step, HTable.insert, hf, Exec.ok_bind, hn, e1, MapOp.step, hlu]
      · simp only [MapOp.step, hlu, MapOp.drops]
        exact hset (m1 := m1) hcs (e2.dropKey L k) e3 (by rw [dropKey_dropped, e4]; exact .refl _)
    · have hlt : t.count < most := by
        simp only [MapOp.step, hlu, List.length_cons] at hmax
        omega
      obtain ⟨p, t', m', bl', cs', e1, e2, e3, e4, e5, e6, e7, e8, _, _, e9⟩ := h.insertImpl hP L (fun _ => he) (v := v) (fun _ => hlu)
        hlt hb
      refine ⟨t', m', bl', cs', ?_, ?_⟩
      · simp only [HTable.step, HTable.insert, hf, Exec.ok_bind, e1, MapOp.step, hlu]
      · simp only [MapOp.step, hlu, MapOp.drops]
        exact hadd hlu e2 e3 e4 e5 e9 e2.core (by rw [e7]; simp)
  | remove k =>
    obtain ⟨t', m', cs', e1, e2⟩ := hremove k
    cases hlu : lookup E.eq (ents cs) k with
    | none =>
      rw [hlu] at e1
      refine ⟨t', m', bl, cs', ?_, ?_⟩
      · simp only [HTable.step, HTable.remove, e1, Exec.ok_bind, MapOp.step, hlu, Option.map_none]
      · simp only [MapOp.step, MapOp.drops, hlu]
        exact e2 [] m' rfl rfl rfl rfl (by simp)
    | some p =>
      rw [hlu] at e1
      refine ⟨t', m'.dropKey E p.1, bl, cs', ?_, ?_⟩
      · simp only [HTable.step, HTable.remove, e1, Exec.ok_bind, MapOp.step, hlu, Option.map_some]
      · simp only [MapOp.step, MapOp.drops, hlu]
        refine e2 _ _ ?_ ?_ ?_ ?_ (dropKey_dropped _ _) <;>
          (unfold HMem.dropKey NMem.logDrop; split <;> rfl)
  | removeEntry k =>
    obtain ⟨t', m', cs', e1, e2⟩ := hremove k
    refine ⟨t', m', bl, cs', ?_, ?_⟩
    · simp only [HTable.step, e1, Exec.ok_bind, MapOp.step]
    · simp only [MapOp.step, MapOp.drops]
      exact e2 [] m' rfl rfl rfl rfl (by simp)
  | get k =>
    refine ⟨t, m, bl, cs, ?_, h.same he⟩
    simp only [HTable.step, hget, Exec.ok_bind, MapOp.step]
  | modify k f =>
    rcases hfind k with ⟨l1, l2, c1, c2, n, b, hcs, hk, hlu, hf, hn⟩ | ⟨b, hlu, hf, hb⟩
    · have hcore := h.core
      rw [hcs] at hcore
      obtain ⟨m1, e1, e2, e3, e4, e5⟩ := hcore.setVal L he hk (f n.2.2) f rfl
      rw [← hcs] at e3
      refine ⟨t, m1, bl, l1 ++ (c1 ++ (n.1, n.2.1, f n.2.2) :: c2) :: l2, ?_, ?_⟩
      · simp only [HTable.step, HTable.modify, hf, Exec.ok_bind, hn, e1, MapOp.step, hlu]
      · simp only [MapOp.step, hlu, MapOp.drops]
        exact hset (m1 := m1) hcs e2 e3 (by rw [e4]; simp)
    · refine ⟨t, m, bl, cs, ?_, ?_⟩
      · simp only [HTable.step, HTable.modify, hf, Exec.ok_bind, MapOp.step, hlu]
      · simp only [MapOp.step, hlu, MapOp.drops]
        exact h.same he
  | contains k =>
    refine ⟨t, m, bl, cs, ?_, h.same he⟩
    simp only [HTable.step, HTable.containsKey, hget, Exec.ok_bind, MapOp.step]
  | entry k f v =>
    rcases hfind k with ⟨l1, l2, c1, c2, n, b, hcs, hk, hlu, hf, hn⟩ | ⟨b, hlu, hf, hb⟩
    · have hcore := (h.core.dropKey L k)
      rw [hcs] at hcore
      obtain ⟨m1, e1, e2, e3, e4, e5⟩ := hcore.setVal L he hk (f n.2.2) f rfl
      rw [← hcs] at e3
      refine ⟨t, m1.dropVal E v, bl, l1 ++ (c1 ++ (n.1, n.2.1, f n.2.2) :: c2) :: l2, ?_, ?_⟩
      · simp only [HTable.step, HTable.entry, hf, Exec.ok_bind, HEntry.andModify, e1,
          HEntry.orInsert, HEntry.orInsertWith, MapOp.step, hlu, Bool.false_eq_true, if_false,
          dropVal_node, e5]
      · simp only [MapOp.step, hlu, MapOp.drops]
        refine hset (m1 := m1) hcs (e2.dropVal L v) e3 ?_
        rw [dropVal_dropped, e4, dropKey_dropped, List.append_assoc, ← List.filter_append]
        exact .refl _
    · have hlt : t.count < most := by
        simp only [MapOp.step, hlu, List.length_cons] at hmax
        omega
      obtain ⟨p, t', m', bl', cs', e1, e2, e3, e4, e5, e6, e7, ⟨x, e8⟩, _, _, e9⟩ := h.insertImpl hP L (fun _ => he) (v := v) (fun _ => hlu)
        hlt hb
      refine ⟨t', m', bl', cs', ?_, ?_⟩
      · simp only [HTable.step, HTable.entry, hf, Exec.ok_bind, HEntry.andModify,
          HEntry.orInsert, HEntry.orInsertWith, MapOp.step, hlu, e1, if_true, e8]
      · simp only [MapOp.step, hlu, MapOp.drops]
        exact hadd hlu e2 e3 e4 e5 e9 e2.core (by rw [e7]; simp)
  | entryKey k =>
    have hs : HStepP P E Inv w wn m peak bl cs (ents cs) [.inl k] t (m.dropKey E k) bl cs :=
      ⟨h.setCore (h.core.dropKey L k) rfl rfl h.peak hmaxpk h.count, .refl _,
        by rw [dropKey_dropped], Stable.refl_of he h.core (.refl _), List.suffix_refl _,
        fun h1 h2 => absurd h1 h2, fun _ => ⟨rfl, rfl⟩,
        fun _ hn => absurd (congrArg List.length hn) (by simp)⟩
    rcases hfind k with ⟨l1, l2, c1, c2, n, b, hcs, hk, hlu, hf, hn⟩ | ⟨b, hlu, hf, hb⟩
    · refine ⟨t, m.dropKey E k, bl, cs, ?_, ?_⟩
      · simp only [HTable.step, HTable.entry, hf, Exec.ok_bind, dropKey_node, hn, HEntry.discard,
          MapOp.step, hlu]
      · simp only [MapOp.step, hlu, MapOp.drops]
        exact hs
    · refine ⟨t, m.dropKey E k, bl, cs, ?_, ?_⟩
      · simp only [HTable.step, HTable.entry, hf, Exec.ok_bind, HEntry.discard,
          MapOp.step, hlu]
      · simp only [MapOp.step, hlu, MapOp.drops]
        exact hs
  | len =>
    refine ⟨t, m, bl, cs, ?_, h.same he⟩
    simp only [HTable.step, MapOp.step, hcnt]
  | isEmpty =>
    refine ⟨t, m, bl, cs, ?_, h.same he⟩
    simp only [HTable.step, MapOp.step, hcnt]
    cases ents cs <;> simp
  | clear =>
    obtain ⟨a, m', e1, e2, e3⟩ := h.freeBuckets L
    have hents : ents (List.replicate t.bucketCount ([] : List (Nat × K × V))) = [] := by simp [ents]
    refine ⟨{ t with al := a, count := 0 }, m', bl, List.replicate t.bucketCount [], ?_, ?_⟩
    · simp only [HTable.step, HTable.clear, e1, Exec.ok_bind, MapOp.step]
    · simp only [MapOp.step, MapOp.drops]
      refine ⟨h.setCore e2 rfl rfl (Nat.zero_le _) (by simp) (by simp), by rw [hents], e3, ?_,
        List.suffix_refl _, fun _ h2 => absurd rfl h2,
        fun _ => ⟨by rw [List.length_replicate, h.core.len], hents⟩,
        fun _ hn => absurd (congrArg List.length hn) (by simp)⟩
      intro n _ n' hn'
      simp at hn'

/-! ### With the growth policy of the source -/

theorem HRep.beforeNew (L : HLaw E Inv) (he : ok → PartialEquiv E.eq)
    (h : HRep ok E Inv w wn m t peak bl cs) {k : K} (hmax : t.count < maxEntries) {target : Ptr}
    (htgt : t.bucketForKey E k m = .ok target) :
    ∃ r nr, getRehashRequired t.nextResize t.bucketCount t.count 1 = .ok (r, nr) ∧
      PolicyAt (r.getD t.bucketCount) nr (max peak (t.count + 1)) ∧
      ∃ tgt t1 m1 bl1 cs1,
      (match r with
        | some bc => do
          let x ← HTable.rehash E { t with nextResize := nr } bc m
          let target ← x.1.bucketForKey E k x.2
          .ok (target, x.1, x.2)
        | none => .ok (target, { t with nextResize := nr }, m)) = (.ok (tgt, t1, m1) : Exec _) ∧
      HCore ok E Inv w wn m1 t1 bl1 cs1 ∧ t1.bucketForKey E k m1 = .ok tgt ∧
      cs1.flatten.Perm cs.flatten ∧ bl <:+ bl1 ∧ bl1 ≠ [] ∧ t1.bucketCount = r.getD t.bucketCount ∧
      t1.nextResize = nr ∧ t1.count = t.count ∧ m1.n.dropped = m.n.dropped ∧
      (∀ q, m1.n.node q = none → m.n.node q = none) ∧ t1.bucketCount ≠ 1 ∧
      t.bucketCount ≤ t1.bucketCount ∧ (cs1 = cs ∨ t.bucketCount < t1.bucketCount) :=
  HRepP.beforeNew PolicyAt.law L he h hmax htgt

/-- `insert_impl` for a key that is not present. -/
theorem HRep.insertImpl (L : HLaw E Inv) (he : ok → PartialEquiv E.eq)
    (h : HRep ok E Inv w wn m t peak bl cs) {k : K} {v : V} (hk : ok → lookup E.eq (ents cs) k = none)
    (hmax : t.count < maxEntries) {target : Ptr} (htgt : t.bucketForKey E k m = .ok target) :
    ∃ p t' m' bl' cs', t.insertImpl E target k v m = .ok (p, t', m') ∧
      HRep ok E Inv w wn m' t' (max peak (t.count + 1)) bl' cs' ∧ bl <:+ bl' ∧ bl' ≠ [] ∧
      cs'.flatten.Perm ((p, k, v) :: cs.flatten) ∧ m.n.node p = none ∧
      m'.n.dropped = m.n.dropped ∧ (∃ x, m'.node p = .ok ⟨k, v, x⟩) ∧
      t'.bucketCount ≠ 1 ∧ t.bucketCount ≤ t'.bucketCount ∧
      (t'.bucketCount = t.bucketCount →
        ∃ l1 l2, ents cs = l1 ++ l2 ∧ ents cs' = l1 ++ (k, v) :: l2) :=
  HRepP.insertImpl PolicyAt.law L he h hk hmax htgt

/-- What a step establishes. -/
abbrev HStep (E : HEnv K V σ) (Inv : σ → HNMem K V → List Nat → Prop) (w : World Nat)
    (wn : Nat → Option (Option (HCell K V))) (m : HMem K V) (peak : Nat)
    (bl : List Nat) (cs : List (List (Nat × K × V))) (s' : List (K × V)) (drops : List (K ⊕ V))
    (t' : HTable σ) (m' : HMem K V) (bl' : List Nat) (cs' : List (List (Nat × K × V))) : Prop :=
  HStepP PolicyAt E Inv w wn m peak bl cs s' drops t' m' bl' cs'

/-- One call. -/
theorem HRep.step (L : HLaw E Inv) (he : PartialEquiv E.eq) (hh : HashOk E)
    (h : HRep True E Inv w wn m t peak bl cs) (op : MapOp K V)
    (hmax : (op.step E.eq (ents cs)).2.length ≤ maxEntries) :
    ∃ t' m' bl' cs', t.step E op m = .ok ((op.step E.eq (ents cs)).1, t', m') ∧
      HStep E Inv w wn m peak bl cs (op.step E.eq (ents cs)).2 (op.drops E.eq (ents cs))
        t' m' bl' cs' :=
  HRepP.step PolicyAt.law L he hh h op hmax

/-- The same with a drop log that accumulates. -/
theorem drops_perm (he : PartialEquiv E.eq) {s s' : List (K × V)} (h : s.Perm s')
    (hd : Distinct E.eq s) (op : MapOp K V) :
    (op.drops E.eq s).Perm (op.drops E.eq s') := by
  cases op <;> simp only [MapOp.drops, ← lookup_perm he h hd] <;> try exact .refl _
  exact h.flatMap_right _

theorem allDrops_perm (he : PartialEquiv E.eq) (ops : List (MapOp K V)) :
    ∀ {s s' : List (K × V)}, s.Perm s' → Distinct E.eq s →
    (MapOp.allDrops E.eq ops s).Perm (MapOp.allDrops E.eq ops s') ∧
    MapOp.peak E.eq ops s = MapOp.peak E.eq ops s' := by
  induction ops with
  | nil => intro s s' h _; exact ⟨.refl _, h.length_eq⟩
  | cons op ops ih =>
    intro s s' h hd
    obtain ⟨h1, h2⟩ := ih (step_perm he h hd op).2 (hd.step he op)
    exact ⟨(drops_perm he h hd op).append h1, by simp only [MapOp.peak, h2, h.length_eq]⟩

theorem le_peak (eq : K → K → Bool) (ops : List (MapOp K V)) (s : List (K × V)) :
    s.length ≤ MapOp.peak eq ops s := by
  cases ops with
  | nil => exact Nat.le_refl _
  | cons op ops => simp only [MapOp.peak]; omega

theorem run_le_peak (eq : K → K → Bool) (ops : List (MapOp K V)) : ∀ (s : List (K × V)),
    (MapOp.run eq ops s).2.length ≤ MapOp.peak eq ops s := by
  induction ops with
  | nil => intro s; exact Nat.le_refl _
  | cons op ops ih =>
    intro s
    have := ih (op.step eq s).2
    simp only [MapOp.run, MapOp.peak]
    omega

/-- A history of calls. -/
theorem HRep.run (L : HLaw E Inv) (he : PartialEquiv E.eq) (hh : HashOk E) (ops : List (MapOp K V)) :
    ∀ {m : HMem K V} {t : HTable σ} {peak : Nat} {bl : List Nat} {cs : List (List (Nat × K × V))},
    HRep True E Inv w wn m t peak bl cs → MapOp.peak E.eq ops (ents cs) ≤ maxEntries →
    ∃ t' m' bl' cs', t.run E ops m = .ok ((MapOp.run E.eq ops (ents cs)).1, t', m') ∧
      HRep True E Inv w wn m' t' (max peak (MapOp.peak E.eq ops (ents cs))) bl' cs' ∧
      (ents cs').Perm (MapOp.run E.eq ops (ents cs)).2 ∧
      m'.n.dropped.Perm (m.n.dropped ++ (MapOp.allDrops E.eq ops (ents cs)).filter E.needs) ∧
      bl <:+ bl' ∧ (bl = [] → bl' = [] → MapOp.peak E.eq ops (ents cs) = 0) := by
  induction ops with
  | nil =>
    intro m t peak bl cs h _
    have hpk := h.peak
    rw [h.count, ← ents_length] at hpk
    refine ⟨t, m, bl, cs, rfl, h.setCore h.core rfl rfl h.peak ?_ h.count, .refl _, by simp [MapOp.allDrops],
      List.suffix_refl _, ?_⟩
    · simp only [MapOp.peak]; omega
    · intro hb _
      simp only [MapOp.peak]
      rw [ents_length, h.core.empty hb]; rfl
  | cons op ops ih =>
    intro m t peak bl cs h hmax
    have hle := le_peak E.eq ops (op.step E.eq (ents cs)).2
    simp only [MapOp.peak] at hmax
    obtain ⟨t1, m1, bl1, cs1, e1, e2⟩ := h.step L he hh op (by omega)
    have hd1 := (h.core.distinct.step he op)
    have hp := e2.perm
    obtain ⟨a1, a2⟩ := allDrops_perm he ops hp (e2.rep.core.distinct)
    obtain ⟨r1, r2⟩ := run_perm he ops hp (e2.rep.core.distinct)
    obtain ⟨t2, m2, bl2, cs2, f1, f2, f3, f4, f5, f6⟩ := ih e2.rep (by rw [a2]; omega)
    rw [r1] at f1
    rw [a2] at f2 f6
    have hpk := h.peak
    rw [h.count, ← ents_length] at hpk
    refine ⟨t2, m2, bl2, cs2, ?_, ?_, f3.trans r2, ?_, e2.arrays.trans f5, ?_⟩
    · simp only [HTable.run, e1, Exec.ok_bind, f1, MapOp.run]
    · refine f2.setCore f2.core rfl rfl f2.peak ?_ f2.count
      simp only [MapOp.peak]
      omega
    · refine f4.trans ?_
      simp only [MapOp.allDrops, List.filter_append]
      rw [← List.append_assoc]
      exact List.Perm.append e2.drops (a1.filter _)
    · intro hb hb2
      have hb1 : bl1 = [] := by
        rw [hb2] at f5
        exact List.suffix_nil.1 f5
      have h0 : ents cs = [] := by
        rw [h.core.empty hb]; rfl
      have := f6 hb1 hb2
      simp only [MapOp.peak, h0]
      rw [h0] at this
      simp [this]

/-- A new table. -/
theorem HRep.init {m0 : HMem K V} {a : σ} (hstat : ArrIs m0.b E.stat [0, sentinel])
    (hinv : Inv a m0.n []) :
    HRep ok E Inv m0.b.live m0.n.node m0 (HTable.newIn E a) 0 [] [[]] where
  core :=
    { len := rfl
      pos := Nat.one_pos
      chains := by simp [HSeg]
      nodup := by simp [addrs]
      homes := by
        intro _ i c hc
        have := List.mem_of_getElem? hc
        simp at this
        subst this
        simp
      dist := fun _ => List.Pairwise.nil
      fits := Nat.le_refl _
      inv := hinv
      start := rfl
      arr := hstat
      blNodup := List.nodup_nil
      blNew := by simp
      out := fun _ _ => rfl
      stat := by
        obtain ⟨blk, h1, _⟩ := hstat
        rw [h1]; simp
      empty := fun _ => rfl
      keep := by simp [addrs] }
  count := rfl
  policy := PolicyAt.init
  peak := Nat.le_refl _
  arrs := ⟨fun _ => rfl, fun _ => rfl⟩

end Verif
