import Verif.HashTable.Foreign
import Verif.Props.HashTable

/-! C++ code iterating over the Rust hash map, and iterators passed between the two languages. -/

set_option autoImplicit false

namespace Verif
open Spec

variable {K V : Type} {E : HEnv K V Unit} {m0 m : HMem K V}

theorem HAfter.not_sentinel {ops : List (MapOp K V)} {t : HTable Unit} {bl : List Nat}
    {cs : List (List (Nat × K × V))} (h : HAfter E m0 ops t m bl cs) (ha : 2 ∣ E.align)
    (hp : 0 < E.align) : ∀ p ∈ addrs cs, p ≠ sentinel := by
  intro p hm he
  have := ha.trans (h.rep.core.inv.aligned p hm hp)
  rw [he] at this
  revert this
  decide

theorem HAfter.cxxEnd {ops : List (MapOp K V)} {t : HTable Unit} {bl : List Nat}
    {cs : List (List (Nat × K × V))} (h : HAfter E m0 ops t m bl cs) :
    t.cxxEnd m = .ok ⟨sentinel, .loc (curArr E bl) t.bucketCount⟩ := by
  have hr : m.b.read (.loc (curArr E bl) t.bucketCount) = .ok sentinel :=
    h.rep.core.arr.read (by simp [heads, ← h.rep.core.len])
  rw [HTable.cxxEnd, h.rep.core.start, h.rep.core.arr.ptrAdd (i := 0) (n := t.bucketCount)
    (by simp [heads, h.rep.core.len])]
  simp only [Exec.ok_bind, Nat.zero_add, hr]

theorem HAfter.run {ops : List (MapOp K V)} {t : HTable Unit} {bl : List Nat}
    {cs : List (List (Nat × K × V))} (A : HAfter E m0 ops t m bl cs) :
    ∃ it, t.iter m = .ok it ∧
      ∀ n, ∃ it', it.run m n = .ok ((List.range n).map fun i => (ents cs)[i]?, it') := by
  obtain ⟨it, c, ds, e1, e2, e3⟩ := A.rep.core.iter
  refine ⟨it, e1, fun n => ?_⟩
  obtain ⟨it', c', ds', f1, f2, f3⟩ := e2.run n
  rw [e3] at f1
  exact ⟨it', f1⟩

/-! ## C87 -/

/-- C87.  A C++ loop from `begin()` to `end()` over the map ends after finitely many steps, having
visited exactly the entries that Rust iteration yields, in the same order; the bucket array ends
in the word C++ expects. -/
theorem C87_cxx_iteration (S : HSetting E m0) (hal : 2 ∣ E.align) (hpos : 0 < E.align)
    (ops : List (MapOp K V)) (hpk : MapOp.peak E.eq ops [] ≤ 2557710464) {outs : List (MapOut K V)}
    {t : HTable Unit} {m : HMem K V} (h : HTable.history E ops m0 = .ok (outs, t, m)) :
    ∃ it es b e steps, t.iter m = .ok it ∧ es.Perm (MapOp.run E.eq ops []).2 ∧
      (∀ n, ∃ it', it.run m n = .ok ((List.range n).map fun i => es[i]?, it')) ∧
      t.cxxEnd m = .ok e ∧ e.node = 2 ^ 64 - 1 ∧
      ∀ fuel, steps ≤ fuel → t.cxxBegin m fuel = .ok b ∧
        HCompat.cxxWalk m e fuel b = .ok es := by
  obtain ⟨bl, cs, A⟩ := S.after hpk h
  obtain ⟨it, e1, e2⟩ := A.run
  have harr : ArrIs m.b (curArr E bl) ([] ++ cs.map (fun c => nextOf c 0) ++ [sentinel]) := by
    simpa [heads] using A.rep.core.arr
  obtain ⟨b, f1, f2⟩ := cxxScan_ok harr A.rep.core.chains
  refine ⟨it, ents cs, b, _, (ents cs).length + cs.length + 2, e1, A.perm, e2, A.cxxEnd, rfl,
    fun fuel hf => ⟨?_, ?_⟩⟩
  · rw [HTable.cxxBegin, A.rep.core.start]
    exact f1 fuel (by omega)
  · rcases f2 with ⟨g1, g2⟩ | ⟨l1, c, l2, g1, g2, g3⟩
    · obtain ⟨fuel, rfl⟩ : ∃ k, fuel = k + 1 := ⟨fuel - 1, by omega⟩
      subst g2
      simp [HCompat.cxxWalk, ents, g1]
    · have hes : cs.flatten = c ++ l2.flatten := by rw [g1]; simp [g2]
      have hns := A.not_sentinel hal hpos
      rw [ents, hes]
      rw [addrs, hes] at hns
      refine g3.walk rfl _ hns rfl fuel ?_
      have : l2.length ≤ cs.length := by rw [g1]; simp; omega
      rw [ents_length, hes] at hf
      omega

/-- Non-vacuity of C87: five entries. -/
example : 2 ∣ (exampleHash (· % 100)).align ∧ (do
      let (_, t, m) ← HTable.history (exampleHash (· % 100)) exampleHashOps exampleHashMem
      let b ← t.cxxBegin m 100
      let e ← t.cxxEnd m
      HCompat.cxxWalk m e 100 b) =
    (.ok [(25, 8), (37, 3), (7, 71), (19, 5), (31, 2)] : Exec (List (Nat × Nat))) :=
  ⟨by decide, by decide +kernel⟩

/-! ## C88 -/

/-- C88, the true part.  The iterator Rust makes for C++ refers to the same entry as C++ `begin()`,
and its end has the bucket pointer of C++ `end()`.  Missing: the bucket pointer of the first and
the node pointer of the second, see below. -/
theorem C88_compat_iterators_partial (S : HSetting E m0) (ops : List (MapOp K V))
    (hpk : MapOp.peak E.eq ops [] ≤ 2557710464) {outs : List (MapOut K V)} {t : HTable Unit}
    {m : HMem K V} (h : HTable.history E ops m0 = .ok (outs, t, m))
    (hne : (MapOp.run E.eq ops []).2 ≠ []) :
    ∃ it b e cb ce steps, t.iter m = .ok it ∧ it.intoCompat m = .ok (b, e) ∧
      (∀ fuel, steps ≤ fuel → t.cxxBegin m fuel = .ok cb) ∧ t.cxxEnd m = .ok ce ∧
      b.node = cb.node ∧ e.bucket = ce.bucket := by
  obtain ⟨bl, cs, A⟩ := S.after hpk h
  have harr : ArrIs m.b (curArr E bl) ([] ++ cs.map (fun c => nextOf c 0) ++ [sentinel]) := by
    simpa [heads] using A.rep.core.arr
  have hne' : cs.flatten ≠ [] := by
    intro h0
    have := A.perm.length_eq
    rw [ents_length, h0] at this
    exact hne (List.eq_nil_of_length_eq_zero this.symm)
  rcases nextBucket_spec harr A.rep.core.chains with ⟨g, _⟩ | ⟨l1, c, l2, g1, g2, g3, g4⟩
  · exact absurd g hne'
  obtain ⟨cb, f1, f2⟩ := cxxScan_ok harr A.rep.core.chains
  rcases f2 with ⟨g, _⟩ | ⟨k1, c', k2, k3, k4, k5⟩
  · exact absurd g hne'
  have hcc : c = c' ∧ l1.length = k1.length := by
    rw [g1] at k3
    rcases List.append_eq_append_iff.1 k3 with ⟨a, ha1, ha2⟩ | ⟨a, ha1, ha2⟩
    · cases a with
      | nil => simp at ha1 ha2; exact ⟨ha2.1, by rw [ha1]⟩
      | cons x a =>
        simp only [List.cons_append, List.cons.injEq] at ha2
        rw [ha1] at k4
        simp [← ha2.1] at k4
        exact absurd k4.2.1 g3
    · cases a with
      | nil => simp at ha1 ha2; exact ⟨ha2.1.symm, by rw [ha1]⟩
      | cons x a =>
        simp only [List.cons_append, List.cons.injEq] at ha2
        rw [ha1] at g2
        simp [← ha2.1] at g2
        exact absurd g2.2.1 k5.pos
  have hb := A.rep.core.len
  rw [g1] at hb
  simp only [List.length_append, List.length_cons] at hb
  have hadd := A.rep.core.arr.ptrAdd (i := l1.length + 1) (n := l2.length)
    (by simp [heads, A.rep.core.len]; omega)
  simp only [List.length_nil, Nat.zero_add] at g4
  refine ⟨⟨.loc (curArr E bl) (l1.length + 1), l2.length, nextOf c 0⟩,
    ⟨nextOf c 0, .loc (curArr E bl) (l1.length + 1)⟩,
    ⟨0, .loc (curArr E bl) (l1.length + 1 + l2.length)⟩, cb, _, cs.length + 1, ?_, ?_, ?_, A.cxxEnd,
    ?_, ?_⟩
  · rw [HTable.iter, A.rep.core.start, ← A.rep.core.len, g4]; rfl
  · simp only [HIter.intoCompat, hadd, Exec.ok_bind]
  · intro fuel hf
    rw [HTable.cxxBegin, A.rep.core.start]
    exact f1 fuel (by omega)
  · rw [k5.node, hcc.1]
  · simp only [Ptr.loc.injEq, true_and]; omega

/-- Rust's first iterator after `into_compat`, and the buckets around it. -/
theorem HAfter.intoCompat {ops : List (MapOp K V)} {t : HTable Unit} {bl : List Nat}
    {cs : List (List (Nat × K × V))} (A : HAfter E m0 ops t m bl cs) (hne : cs.flatten ≠ []) :
    ∃ l1 c l2 it, cs = l1 ++ c :: l2 ∧ l1.flatten = [] ∧ c ≠ [] ∧ t.iter m = .ok it ∧
      it.intoCompat m = .ok (⟨nextOf c 0, .loc (curArr E bl) (l1.length + 1)⟩,
        ⟨0, .loc (curArr E bl) t.bucketCount⟩) := by
  have harr : ArrIs m.b (curArr E bl) ([] ++ cs.map (fun c => nextOf c 0) ++ [sentinel]) := by
    simpa [heads] using A.rep.core.arr
  rcases nextBucket_spec harr A.rep.core.chains with ⟨g, _⟩ | ⟨l1, c, l2, g1, g2, g3, g4⟩
  · exact absurd g hne
  have hb := A.rep.core.len
  rw [g1] at hb
  simp only [List.length_append, List.length_cons] at hb
  have hadd := A.rep.core.arr.ptrAdd (i := l1.length + 1) (n := l2.length)
    (by simp [heads, A.rep.core.len]; omega)
  simp only [List.length_nil, Nat.zero_add] at g4
  refine ⟨l1, c, l2, ⟨.loc (curArr E bl) (l1.length + 1), l2.length, nextOf c 0⟩, g1, g2, g3, ?_, ?_⟩
  · rw [HTable.iter, A.rep.core.start, ← A.rep.core.len, g4]; rfl
  · simp only [HIter.intoCompat, hadd, Exec.ok_bind]
    rw [show l1.length + 1 + l2.length = t.bucketCount by omega]

theorem HAfter.entries_ne {ops : List (MapOp K V)} {t : HTable Unit} {bl : List Nat}
    {cs : List (List (Nat × K × V))} (A : HAfter E m0 ops t m bl cs)
    (hne : (MapOp.run E.eq ops []).2 ≠ []) : cs.flatten ≠ [] := by
  intro h0
  have := A.perm.length_eq
  rw [ents_length, h0] at this
  exact hne (List.eq_nil_of_length_eq_zero this.symm)

/-- C88 fails: a C++ loop from the iterator Rust makes leaves out every entry in the bucket after
the first occupied one; if the first occupied bucket is the last, it runs beyond the bucket array
whatever the number of steps. -/
theorem C88_rust_begin_skips (S : HSetting E m0) (hal : 2 ∣ E.align) (hpos : 0 < E.align)
    (ops : List (MapOp K V)) (hpk : MapOp.peak E.eq ops [] ≤ 2557710464) {outs : List (MapOut K V)}
    {t : HTable Unit} {m : HMem K V} (h : HTable.history E ops m0 = .ok (outs, t, m))
    (hne : (MapOp.run E.eq ops []).2 ≠ []) :
    ∃ it x xs b e ce, t.iter m = .ok it ∧ (x :: xs).Perm (MapOp.run E.eq ops []).2 ∧
      (∀ n, ∃ it', it.run m n = .ok ((List.range n).map fun i => (x :: xs)[i]?, it')) ∧
      it.intoCompat m = .ok (b, e) ∧ t.cxxEnd m = .ok ce ∧
      (E.hash x.1 % t.bucketCount + 1 < t.bucketCount → ∃ steps, ∀ fuel, steps ≤ fuel →
        HCompat.cxxWalk m ce fuel b = .ok ((x :: xs).filter fun y =>
          E.hash y.1 % t.bucketCount ≠ E.hash x.1 % t.bucketCount + 1)) ∧
      (E.hash x.1 % t.bucketCount + 1 = t.bucketCount → ∀ fuel ys,
        HCompat.cxxWalk m ce fuel b ≠ .ok ys) := by
  obtain ⟨bl, cs, A⟩ := S.after hpk h
  obtain ⟨it, e1, e2⟩ := A.run
  obtain ⟨l1, c, l2, it', g1, g2, g3, g4, g5⟩ := A.intoCompat (A.entries_ne hne)
  rw [e1] at g4
  cases g4
  obtain ⟨n, c, rfl⟩ : ∃ n c', c = n :: c' := by
    cases c with
    | nil => exact absurd rfl g3
    | cons n c => exact ⟨n, c, rfl⟩
  have hes : ents cs = n.2 :: (c ++ l2.flatten).map Prod.snd := by
    simp [ents, g1, g2]
  have hlen := A.rep.core.len
  have harr : ArrIs m.b (curArr E bl) (cs.map (fun c => nextOf c 0) ++ [sentinel]) := A.rep.core.arr
  have hseg : HSeg m.n (n :: c) 0 := A.rep.core.chains _ (by rw [g1]; simp)
  have hns := A.not_sentinel hal hpos
  have hhome := A.rep.core.home
  rw [hes] at e2
  have hn1 : E.hash n.2.1 % t.bucketCount = l1.length := by
    rw [g1] at hhome
    exact hhome.filter_mid.1 n (by simp)
  refine ⟨it, n.2, _, _, _, _, e1, ?_, e2, g5, A.cxxEnd, ?_, ?_⟩
  · rw [← hes]; exact A.perm
  · intro hlt
    rw [hn1] at hlt ⊢
    cases l2 with
    | nil => rw [g1] at hlen; simp at hlen; omega
    | cons d l2 =>
      have hat : CxxAt m (curArr E bl) (l1.length + 1)
          ⟨nextOf (n :: c) 0, .loc (curArr E bl) (l1.length + 1)⟩ (n :: c) l2 :=
        ⟨rfl, ⟨(l1 ++ [n :: c, d]).map fun c => nextOf c 0, by simp, by
          rw [g1] at harr; simpa using harr⟩, rfl, hseg,
          fun x hx => A.rep.core.chains x (by rw [g1]; simp [hx]), by simp⟩
      refine ⟨(n :: c ++ l2.flatten).length + l2.length + 2, fun fuel hf => ?_⟩
      rw [hat.walk rfl _ (fun p hp => hns p ?_) rfl fuel (by omega)]
      · congr 1
        have hsplit : cs = (l1 ++ [n :: c]) ++ d :: l2 := by rw [g1]; simp
        rw [hsplit] at hhome
        obtain ⟨k1, k2⟩ := hhome.filter_mid
        simp only [List.length_append, List.length_cons, List.length_nil, Nat.zero_add,
          List.flatten_append, List.flatten_cons, List.flatten_nil, List.append_nil, g2,
          List.nil_append] at k1 k2
        have hx : n.2 :: List.map Prod.snd (c ++ (d :: l2).flatten) =
            ((n :: c) ++ (d ++ l2.flatten)).map Prod.snd := by simp
        rw [hx, List.filter_map, List.filter_append, List.filter_append,
          List.filter_eq_self.2, List.filter_eq_nil_iff.2, List.filter_eq_self.2, List.nil_append]
        · intro y hy
          simpa using k2 y (List.mem_append_right _ hy)
        · intro y hy
          simpa using k1 y hy
        · intro y hy
          simpa using k2 y (List.mem_append_left _ hy)
      · rw [addrs, g1]
        simp only [List.map_append, List.mem_append, List.flatten_append, List.flatten_cons] at hp ⊢
        rcases hp with hp | hp
        · exact .inr (.inl hp)
        · exact .inr (.inr (.inr hp))
  · intro heq
    rw [hn1] at heq
    have : l2 = [] := by
      rw [g1] at hlen; simp at hlen
      exact List.eq_nil_of_length_eq_zero (by omega)
    subst this
    refine cxxWalk_beyond harr (n :: c) ?_ hseg (by simp) fun x hx => ?_
    · simp [g1]
    · refine hns x.1 ?_
      rw [addrs, g1]
      simp only [List.flatten_append, List.flatten_cons, List.map_append, List.mem_append]
      exact .inr (.inl (List.mem_map_of_mem hx))

/-- C88 fails: a C++ loop up to the end iterator Rust makes never ends well, whatever the number of
steps: it follows the sentinel. -/
theorem C88_rust_end_missed (S : HSetting E m0) (hal : 2 ∣ E.align) (hpos : 0 < E.align)
    (hfree : m0.n.node (2 ^ 64 - 1) = none)
    (ops : List (MapOp K V)) (hpk : MapOp.peak E.eq ops [] ≤ 2557710464) {outs : List (MapOut K V)}
    {t : HTable Unit} {m : HMem K V} (h : HTable.history E ops m0 = .ok (outs, t, m)) :
    ∃ it b e cb steps, t.iter m = .ok it ∧ it.intoCompat m = .ok (b, e) ∧
      (∀ fuel, steps ≤ fuel → t.cxxBegin m fuel = .ok cb) ∧
      ∀ fuel xs, HCompat.cxxWalk m e fuel cb ≠ .ok xs := by
  obtain ⟨bl, cs, A⟩ := S.after hpk h
  have harr : ArrIs m.b (curArr E bl) ([] ++ cs.map (fun c => nextOf c 0) ++ [sentinel]) := by
    simpa [heads] using A.rep.core.arr
  obtain ⟨it, c, ds, e1, e2, e3⟩ := A.rep.core.iter
  obtain ⟨b, e, f1, _, _, f4⟩ := e2.compat
  obtain ⟨cb, g1, g2⟩ := cxxScan_ok harr A.rep.core.chains
  have hsn : m.n.node sentinel = none :=
    (A.rep.core.inv.node sentinel fun hm => A.not_sentinel hal hpos _ hm rfl).2 hfree
  refine ⟨it, b, e, cb, cs.length + 1, e1, f1, ?_, ?_⟩
  · intro fuel hf
    rw [HTable.cxxBegin, A.rep.core.start]
    exact g1 fuel (by omega)
  · rcases g2 with ⟨_, g2⟩ | ⟨l1, c', l2, _, _, g5⟩
    · intro fuel xs hw
      cases fuel with
      | zero => cases hw
      | succ fuel =>
        have hcb : cb.node = sentinel := by rw [g2]
        have hs : cb.node ≠ e.node := by rw [f4, hcb]; decide
        simp only [HCompat.cxxWalk, if_neg hs] at hw
        simp only [HCompat.cxxNext, hcb, HMem.node, NMem.get, hsn] at hw
        cases hw
    · exact g5.walk_null f4 hsn _ rfl

/-- C88 fails: a Rust iterator made from C++ `begin()` and `end()` yields the entries of the first
occupied bucket twice. -/
theorem C88_cxx_begin_repeats (S : HSetting E m0)
    (ops : List (MapOp K V)) (hpk : MapOp.peak E.eq ops [] ≤ 2557710464) {outs : List (MapOut K V)}
    {t : HTable Unit} {m : HMem K V} (h : HTable.history E ops m0 = .ok (outs, t, m))
    (hne : (MapOp.run E.eq ops []).2 ≠ []) :
    ∃ it x xs cb ce it' steps, t.iter m = .ok it ∧ (x :: xs).Perm (MapOp.run E.eq ops []).2 ∧
      (∀ n, ∃ it', it.run m n = .ok ((List.range n).map fun i => (x :: xs)[i]?, it')) ∧
      (∀ fuel, steps ≤ fuel → t.cxxBegin m fuel = .ok cb) ∧ t.cxxEnd m = .ok ce ∧
      HIter.fromCompat cb ce = .ok it' ∧
      ∀ n, ∃ it'', it'.run m n = .ok ((List.range n).map fun i =>
        (((x :: xs).filter fun y => E.hash y.1 % t.bucketCount = E.hash x.1 % t.bucketCount) ++
          x :: xs)[i]?, it'') := by
  obtain ⟨bl, cs, A⟩ := S.after hpk h
  obtain ⟨it, e1, e2⟩ := A.run
  have harr : ArrIs m.b (curArr E bl) ([] ++ cs.map (fun c => nextOf c 0) ++ [sentinel]) := by
    simpa [heads] using A.rep.core.arr
  obtain ⟨cb, f1, f2⟩ := cxxScan_ok harr A.rep.core.chains
  rcases f2 with ⟨g, _⟩ | ⟨l1, c, l2, g1, g2, g3⟩
  · exact absurd g (A.entries_ne hne)
  obtain ⟨n, c, rfl⟩ : ∃ n c', c = n :: c' := by
    cases c with
    | nil => exact absurd rfl g3.pos
    | cons n c => exact ⟨n, c, rfl⟩
  have hes : ents cs = n.2 :: (c ++ l2.flatten).map Prod.snd := by
    simp [ents, g1, g2]
  have hlen := A.rep.core.len
  rw [g1] at hlen
  simp only [List.length_append, List.length_cons] at hlen
  have hhome := A.rep.core.home
  rw [g1] at hhome
  obtain ⟨k1, k2⟩ := hhome.filter_mid
  have hn1 := k1 n (by simp)
  rw [hes] at e2
  have hcb := g3.bucket
  simp only [List.length_nil, Nat.zero_add] at hcb
  have hat : IterAt m (curArr E bl) [sentinel]
      ⟨.loc (curArr E bl) l1.length, (l2.length + 1), nextOf (n :: c) 0⟩ (n :: c) ((n :: c) :: l2) :=
    ⟨⟨l1.map fun c => nextOf c 0, by simp, by rw [g1] at harr; simpa using harr⟩, rfl, rfl, g3.seg,
      fun d hd => A.rep.core.chains d (by rw [g1]; simp only [List.mem_append]; exact .inr hd),
      by simp⟩
  refine ⟨it, n.2, _, cb, _, ⟨.loc (curArr E bl) l1.length, (l2.length + 1), nextOf (n :: c) 0⟩,
    cs.length + 1, e1, ?_, e2, ?_, A.cxxEnd, ?_, fun k => ?_⟩
  · rw [← hes]; exact A.perm
  · intro fuel hf
    rw [HTable.cxxBegin, A.rep.core.start]
    exact f1 fuel (by omega)
  · have : (Ptr.loc (curArr E bl) t.bucketCount).offsetFrom (.loc (curArr E bl) l1.length) =
        .ok (l2.length + 1) := by simp [Ptr.offsetFrom, ← hlen]
    simp only [HIter.fromCompat, hcb, this, Exec.ok_bind, g3.node]
  · obtain ⟨it'', _, _, q, _⟩ := hat.run k
    refine ⟨it'', ?_⟩
    rw [q]
    congr 3
    funext i
    congr 1
    rw [hn1]
    have hx : n.2 :: List.map Prod.snd (c ++ l2.flatten) =
        ((n :: c) ++ l2.flatten).map Prod.snd := by simp
    rw [hx, List.filter_map, List.filter_append, List.filter_eq_self.2,
      List.filter_eq_nil_iff.2]
    · simp
    · intro y hy
      simpa using k2 y (List.mem_append_right _ hy)
    · intro y hy
      simpa using k1 y hy

/-- C88 fails: a Rust iterator made from C++ `begin()` and `end()` of an empty map follows the
sentinel when it is first used. -/
theorem C88_cxx_empty_ub (S : HSetting E m0) (hal : 2 ∣ E.align) (hpos : 0 < E.align)
    (hfree : m0.n.node (2 ^ 64 - 1) = none)
    (ops : List (MapOp K V)) (hpk : MapOp.peak E.eq ops [] ≤ 2557710464) {outs : List (MapOut K V)}
    {t : HTable Unit} {m : HMem K V} (h : HTable.history E ops m0 = .ok (outs, t, m))
    (hemp : (MapOp.run E.eq ops []).2 = []) :
    ∃ cb ce it steps, (∀ fuel, steps ≤ fuel → t.cxxBegin m fuel = .ok cb) ∧ t.cxxEnd m = .ok ce ∧
      HIter.fromCompat cb ce = .ok it ∧ it.next m = .error .ub := by
  obtain ⟨bl, cs, A⟩ := S.after hpk h
  have harr : ArrIs m.b (curArr E bl) ([] ++ cs.map (fun c => nextOf c 0) ++ [sentinel]) := by
    simpa [heads] using A.rep.core.arr
  have hcs : cs.flatten = [] := by
    have := A.perm.length_eq
    rw [hemp, ents_length] at this
    exact List.eq_nil_of_length_eq_zero this
  have hsn : m.n.node sentinel = none :=
    (A.rep.core.inv.node sentinel fun hm => A.not_sentinel hal hpos _ hm rfl).2 hfree
  obtain ⟨cb, g1, g2⟩ := cxxScan_ok harr A.rep.core.chains
  rcases g2 with ⟨_, g2⟩ | ⟨l1, c', l2, k1, _, g5⟩
  · refine ⟨cb, _, ⟨.loc (curArr E bl) t.bucketCount, 0, sentinel⟩, cs.length + 1, ?_, A.cxxEnd, ?_, ?_⟩
    · intro fuel hf
      rw [HTable.cxxBegin, A.rep.core.start]
      exact g1 fuel (by omega)
    · rw [A.rep.core.len] at g2
      simp only [List.length_nil, Nat.zero_add] at g2
      subst g2
      simp [HIter.fromCompat, Ptr.offsetFrom]
    · have : sentinel ≠ 0 := by decide
      simp [HIter.next, this, HMem.node, NMem.get, hsn]
  · exfalso
    refine g5.pos ?_
    rw [k1] at hcs
    simp only [List.flatten_append, List.flatten_cons, List.append_eq_nil_iff] at hcs
    exact hcs.2.1

/-- Non-vacuity of C88: with four entries in two adjacent buckets, C++ misses those of the second
bucket; Rust sees those of the first bucket twice; with a single entry in the last bucket C++ runs
beyond the array; an empty map. -/
example : (exampleHashMem (V := Nat)).n.node (2 ^ 64 - 1) = none ∧
    (MapOp.run (exampleHash (· % 2)).eq [.insert 4 40, .remove 104] []).2 = [] ∧
    (do
      let (_, t, m) ← HTable.history (exampleHash (· % 2)) [.insert 4 40, .remove 104] exampleHashMem
      let cb ← t.cxxBegin m 100
      let ce ← t.cxxEnd m
      let it ← HIter.fromCompat cb ce
      it.next m) = .error .ub ∧
    (do
      let (_, t, m) ← HTable.history (exampleHash (· % 100 % 2)) [.insert 4 40, .insert 5 50,
        .insert 7 70, .insert 6 60] exampleHashMem
      let it ← t.iter m
      let (b, e) ← it.intoCompat m
      let ce ← t.cxxEnd m
      let xs ← HCompat.cxxWalk m ce 100 b
      let cb ← t.cxxBegin m 100
      let (ys, _) ← (← HIter.fromCompat cb ce).run m 8
      .ok (xs, (HCompat.cxxWalk m e 100 cb).toOption, ys)) =
    (.ok ([(6, 60), (4, 40)], none, [some (6, 60), some (4, 40), some (6, 60), some (4, 40),
        some (7, 70), some (5, 50), none, none]) :
      Exec (List (Nat × Nat) × Option (List (Nat × Nat)) × List (Option (Nat × Nat)))) ∧
    (do
      let (_, t, m) ← HTable.history (exampleHash (fun _ => 1)) [.insert 4 40] exampleHashMem
      let it ← t.iter m
      let (b, _) ← it.intoCompat m
      let ce ← t.cxxEnd m
      .ok (t.bucketCount, (HCompat.cxxWalk m ce 100 b).toOption)) =
    (.ok (2, none) : Exec (Nat × Option (List (Nat × Nat)))) := by
  exact ⟨rfl, by decide +kernel, by decide +kernel, by decide +kernel, by decide +kernel⟩

end Verif
