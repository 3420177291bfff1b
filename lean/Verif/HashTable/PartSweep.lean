import Verif.HashTable.Iter
import Verif.Spec.PartSweep

/-! A loop over `iter_mut` of a hash map that assigns to the values it is given and may stop early. -/

set_option autoImplicit false

namespace Verif
open Spec

variable {K V σ : Type}

/-- As many calls of `next` of `IterMut` (src/internal/hash_table/iter.rs:168-184, 337-339) as there
are values given, each followed by `*v = y` if it returned a pair of references `(k, v)`; the entries
that were there. -/
def HIter.sweep (E : HEnv K V σ) : List V → HIter → HMem K V →
    Exec (List (Option (K × V)) × HMem K V)
  | [], _, m => .ok ([], m)
  | y :: ys, it, m => do
    let (p, it) ← it.next m
    match p with
    | none => do
      let (os, m) ← HIter.sweep E ys it m
      .ok (none :: os, m)
    | some p => do
      let c ← m.node p
      let m ← m.modify p fun c => { c with val := y }
      let m := m.dropVal E c.val
      let (os, m) ← HIter.sweep E ys it m
      .ok (some (c.key, c.val) :: os, m)

/-- A call, or a loop over `iter_mut` (src/hash_map/mod.rs:109-111) that assigns the values given. -/
def HTable.stepW (E : HEnv K V σ) : MapWrite K V → HTable σ → HMem K V →
    Exec (MapSeen K V × HTable σ × HMem K V)
  | .call op, t, m => do
    let (o, t, m) ← t.step E op m
    .ok (.out o, t, m)
  | .sweep ys, t, m => do
    let it ← t.iter m
    let (os, m) ← it.sweep E ys m
    .ok (.saw os, t, m)

/-- A history of calls and such loops. -/
def HTable.runW (E : HEnv K V σ) : List (MapWrite K V) → HTable σ → HMem K V →
    Exec (List (MapSeen K V) × HTable σ × HMem K V)
  | [], t, m => .ok ([], t, m)
  | i :: is, t, m => do
    let (o, t, m) ← t.stepW E i m
    let (os, t, m) ← HTable.runW E is t m
    .ok (o :: os, t, m)

section
variable {ok : Prop} {E : HEnv K V σ} {Inv : σ → HNMem K V → List Nat → Prop} {w : World Nat}
  {wn : Nat → Option (Option (HCell K V))} {m m' : HMem K V} {t : HTable σ} {bl : List Nat}
  {cs : List (List (Nat × K × V))} {peak : Nat}

theorem HMem.dropVal_n (m : HMem K V) (v : V) : (m.dropVal E v).n.node = m.n.node ∧
    (m.dropVal E v).n.link = m.n.link ∧ (m.dropVal E v).n.reg = m.n.reg ∧
    (m.dropVal E v).b = m.b ∧
    (m.dropVal E v).n.dropped = m.n.dropped ++ (if E.ndV then [.inr v] else []) := by
  unfold HMem.dropVal NMem.logDrop
  cases E.ndV <;> simp

theorem range_getElem? {α β : Type} (f : α → β) (l : List α) (k : Nat) :
    (List.range (k + 1)).map (fun i => (l.map f)[i]?) =
      (l.map f)[0]? :: (List.range k).map fun i => (l.tail.map f)[i]? := by
  rw [List.range_succ_eq_map, List.map_cons, List.map_map]
  congr 1
  refine List.map_congr_left fun i _ => ?_
  cases l <;> simp

theorem IterAt.sweep {b : Nat} {post : List Nat} : ∀ (ys : List V) {it : HIter}
    {c : List (Nat × K × V)} {ds : List (List (Nat × K × V))} {m : HMem K V},
    IterAt m b post it c ds → ((c ++ ds.flatten).map Prod.fst).Nodup →
    ∃ m', it.sweep E ys m = .ok ((List.range ys.length).map fun i =>
        ((c ++ ds.flatten).map Prod.snd)[i]?, m') ∧
      (∀ q, m'.n.node q = none ↔ m.n.node q = none) ∧ m'.n.link = m.n.link ∧
      m'.n.reg = m.n.reg ∧ m'.b = m.b ∧
      m'.n.dropped = m.n.dropped ++ (if E.ndV then
        ((c ++ ds.flatten).take ys.length).map fun n => .inr n.2.2 else []) ∧
      (∀ q, q ∉ (c ++ ds.flatten).map Prod.fst → m'.n.node q = m.n.node q) ∧
      ∀ (i : Nat) (n : Nat × K × V), (c ++ ds.flatten)[i]? = some n → ∀ x : Nat, m.n.node n.1 = some (some ⟨n.2.1, n.2.2, x⟩) →
        m'.n.node n.1 = some (some ⟨n.2.1, (ys[i]?).getD n.2.2, x⟩) := by
  intro ys
  induction ys with
  | nil =>
    intro it c ds m h hnd
    exact ⟨m, rfl, fun _ => Iff.rfl, rfl, rfl, rfl, by simp, fun _ _ => rfl,
      fun i n _ x hx => by simpa using hx⟩
  | cons y ys ih =>
    intro it c ds m h hnd
    obtain ⟨it1, c1, ds1, e1, e2, e3⟩ := h.next
    cases c with
    | nil =>
      have := h.done rfl
      subst this
      simp only [List.flatten_nil, List.append_nil, List.tail_nil] at e3
      obtain ⟨m2, k1, k2, k3, k4, k5, k6, k7, _⟩ := ih e2 (by rw [e3]; simp)
      rw [e3] at k1 k6
      refine ⟨m2, ?_, k2, k3, k4, k5, by simpa using k6, fun q _ => k7 q (by rw [e3]; simp),
        by simp⟩
      simp only [List.flatten_nil, List.append_nil, List.length_cons]
      rw [range_getElem?]
      simp only [List.flatten_nil, List.append_nil, List.head?_nil, Option.map_none] at e1
      simp only [HIter.sweep, e1, Exec.ok_bind, k1, List.map_nil, List.tail_nil]
      rfl
    | cons n c =>
      rw [List.cons_append, List.tail_cons] at e3
      rw [List.cons_append, List.map_cons, List.nodup_cons] at hnd
      have hnode := (HSeg.node (a := []) h.seg).2
      obtain ⟨m1, g1, g2, g3, g4⟩ := HMem.modify_ok hnode (fun c => { c with val := y })
      obtain ⟨d1, d2, d3, d4, d5⟩ := HMem.dropVal_n (E := E) m1 n.2.2
      have hne : ∀ x ∈ c ++ ds.flatten, x.1 ≠ n.1 :=
        fun x hx e => hnd.1 (e ▸ List.mem_map_of_mem hx)
      obtain ⟨m2, k1, k2, k3, k4, k5, k6, k7, k8⟩ := ih (it := it1) (c := c1) (ds := ds1)
        (m := m1.dropVal E n.2.2)
        (e2.frame (d4.trans g2) fun x hx => by
          rw [d1, g3, Function.update_of_ne (hne x (by rw [← e3]; exact hx))])
        (by rw [e3]; exact hnd.2)
      rw [e3] at k1 k6 k7 k8
      refine ⟨m2, ?_, fun q => (k2 q).trans (by rw [d1]; exact g4.node q), by rw [k3, d2, g4.link],
        by rw [k4, d3, g4.reg], by rw [k5, d4, g2], ?_, ?_, ?_⟩
      · rw [List.length_cons, range_getElem?]
        simp only [HIter.sweep, e1, Exec.ok_bind, List.cons_append, List.head?_cons,
          Option.map_some, hnode, g1, k1]
        rfl
      · rw [k6, d5, g4.dropped]
        cases E.ndV <;> simp
      · intro q hq
        simp only [List.cons_append, List.map_cons, List.mem_cons, not_or] at hq
        rw [k7 q hq.2, d1, g3, Function.update_of_ne hq.1]
      · intro i x hx z hz
        cases i with
        | zero =>
          simp only [List.cons_append, List.getElem?_cons_zero, Option.some.injEq] at hx
          subst hx
          rw [k7 _ hnd.1, d1, g3, Function.update_self]
          simp only [HMem.node, NMem.get, hz, Exec.ok_bind, Except.ok.injEq] at hnode
          rw [← hnode]
          simp
        | succ i =>
          simp only [List.cons_append, List.getElem?_cons_succ] at hx
          simp only [List.getElem?_cons_succ]
          refine k8 i x hx z ?_
          rw [d1, g3, Function.update_of_ne (hne x (List.mem_of_getElem? hx))]
          exact hz

/-- The value that is now in a node. -/
def valAt (m : HMem K V) (n : Nat × K × V) : V :=
  match m.n.node n.1 with
  | some (some c) => c.val
  | _ => n.2.2

/-- The chains with the values that are now in the nodes. -/
def freshVals (m : HMem K V) (cs : List (List (Nat × K × V))) : List (List (Nat × K × V)) :=
  cs.map fun c => c.map fun n => (n.1, n.2.1, valAt m n)

theorem nextOf_map_fst {f : Nat × K × V → Nat × K × V} (hf : ∀ n, (f n).1 = n.1)
    (c : List (Nat × K × V)) (e : Nat) : nextOf (c.map f) e = nextOf c e := by
  cases c with
  | nil => rfl
  | cons n c => exact hf n

theorem HSeg.fresh {f : Nat × K × V → Nat × K × V} (hf : ∀ n, (f n).1 = n.1) {e : Nat} :
    ∀ {c : List (Nat × K × V)}, HSeg m.n c e →
    (∀ n ∈ c, ∀ x, m.n.node n.1 = some (some ⟨n.2.1, n.2.2, x⟩) →
      m'.n.node n.1 = some (some ⟨(f n).2.1, (f n).2.2, x⟩)) → HSeg m'.n (c.map f) e := by
  intro c
  induction c with
  | nil => intros; trivial
  | cons n c ih =>
    intro h hg
    refine ⟨by rw [hf]; exact h.1, ?_, ih h.2.2 fun x hx => hg x (by simp [hx])⟩
    rw [nextOf_map_fst hf, hf]
    exact hg n (by simp) _ h.2.1

/-- The entries after values were assigned in the order of iteration. -/
theorem zip_get {α : Type} (f : α × K × V → V) (l : List (α × K × V)) : ∀ (ys : List V),
    (∀ (i : Nat) (n : α × K × V), l[i]? = some n → f n = (ys[i]?).getD n.2.2) →
    l.map (fun n => (n.2.1, f n)) =
      List.zipWith (fun n y => (n.2.1, y)) l ys ++ (l.drop ys.length).map Prod.snd := by
  induction l with
  | nil => intro ys _; simp
  | cons n l ih =>
    intro ys hf
    have h0 := hf 0 n rfl
    cases ys with
    | nil =>
      have := ih [] fun i x hx => by simpa using hf (i + 1) x hx
      rw [List.map_cons, this, h0]
      simp
    | cons y ys =>
      have := ih ys fun i x hx => by simpa using hf (i + 1) x hx
      rw [List.map_cons, this, h0]
      simp

theorem HRep.sweep (L : HLaw E Inv) (h : HRep ok E Inv w wn m t peak bl cs) (ys : List V) :
    ∃ it m' cs', t.iter m = .ok it ∧
      it.sweep E ys m = .ok ((List.range ys.length).map fun i => (ents cs)[i]?, m') ∧
      m'.n.dropped = m.n.dropped ++ (if E.ndV then
        ((ents cs).take ys.length).map fun e => .inr e.2 else []) ∧
      HRep ok E Inv w wn m' t peak bl cs' ∧
      ents cs' = List.zipWith (fun e y => (e.1, y)) (ents cs) ys ++ (ents cs).drop ys.length := by
  obtain ⟨it, c, ds, e1, e2, e3⟩ := h.core.iter
  obtain ⟨m', f1, f2, f3, f4, f5, f6, f7, f8⟩ := e2.sweep (E := E) ys (by rw [e3]; exact h.core.nodup)
  rw [e3] at f1 f6 f7 f8
  have hold : ∀ n ∈ cs.flatten, ∃ x, m.n.node n.1 = some (some ⟨n.2.1, n.2.2, x⟩) := by
    intro n hn
    obtain ⟨d, hd, hn⟩ := List.mem_flatten.1 hn
    obtain ⟨a, b, rfl⟩ := List.append_of_mem hn
    have hnode := (HSeg.node (h.core.chains _ hd)).2
    unfold HMem.node NMem.get at hnode
    cases hq : m.n.node n.1 with
    | none => rw [hq] at hnode; cases hnode
    | some o =>
      rw [hq] at hnode
      cases o with
      | none => cases hnode
      | some cc =>
        simp only [Exec.ok_bind, Except.ok.injEq] at hnode
        exact ⟨_, by rw [hnode]⟩
  have hnew : ∀ n ∈ cs.flatten, ∀ x, m.n.node n.1 = some (some ⟨n.2.1, n.2.2, x⟩) →
      m'.n.node n.1 = some (some ⟨n.2.1, valAt m' n, x⟩) := by
    intro n hn x hx
    obtain ⟨i, hi⟩ := List.getElem?_of_mem hn
    have := f8 i n hi x hx
    rw [this, valAt, this]
  have hflat : (freshVals m' cs).flatten = cs.flatten.map fun n =>
      (n.1, n.2.1, valAt m' n) := by
    simp [freshVals, List.map_flatten]
  have haddr : addrs (freshVals m' cs) = addrs cs := by
    rw [addrs, hflat, List.map_map]; rfl
  have hents : ents (freshVals m' cs) =
      List.zipWith (fun e y => (e.1, y)) (ents cs) ys ++ (ents cs).drop ys.length := by
    rw [ents, hflat, List.map_map, ents, List.zipWith_map_left, ← List.map_drop]
    refine zip_get (valAt m') cs.flatten ys fun i n hi => ?_
    obtain ⟨x, hx⟩ := hold n (List.mem_of_getElem? hi)
    rw [valAt, f8 i n hi x hx]
  have hheads : heads (freshVals m' cs) = heads cs := by
    simp only [heads, freshVals, List.map_map]
    congr 1
    refine List.map_congr_left fun d _ => ?_
    exact nextOf_map_fst (f := fun n => (n.1, n.2.1, valAt m' n)) (fun _ => rfl) d 0
  refine ⟨it, m', freshVals m' cs, e1, by rw [f1, ents], ?_, h.setCore ?_ rfl rfl h.peak rfl
    (by rw [hflat, List.length_map]; exact h.count), hents⟩
  · rw [f6, ents, ← List.map_take, List.map_map]
    rfl
  exact
  { len := by rw [freshVals, List.length_map]; exact h.core.len
    pos := h.core.pos
    chains := by
      intro d hd
      obtain ⟨d', hd', rfl⟩ := List.mem_map.1 hd
      exact (h.core.chains d' hd').fresh (m' := m') (f := fun n => (n.1, n.2.1, valAt m' n))
        (fun _ => rfl) fun n hn x hx => hnew n (List.mem_flatten.2 ⟨d', hd', hn⟩) x hx
    nodup := by rw [haddr]; exact h.core.nodup
    homes := by
      intro ho i d hd n hn
      rw [freshVals, List.getElem?_map] at hd
      cases hc : cs[i]? with
      | none => rw [hc] at hd; cases hd
      | some d' =>
        rw [hc] at hd
        simp only [Option.map_some, Option.some.injEq] at hd
        subst hd
        obtain ⟨n', hn', rfl⟩ := List.mem_map.1 hn
        exact h.core.homes ho i d' hc n' hn'
    dist := by
      intro ho
      rw [ents, hflat, List.map_map]
      have := h.core.dist ho
      unfold Distinct at this ⊢
      rw [ents, List.pairwise_map] at this
      rw [List.pairwise_map]
      exact this
    fits := by rw [hflat, List.length_map]; exact h.core.fits
    inv := by rw [haddr]; exact L.frame h.core.inv f2 f3 f4
    start := h.core.start
    arr := by rw [hheads, f5]; exact h.core.arr
    blNodup := h.core.blNodup
    blNew := by rw [f5]; exact h.core.blNew
    out := by rw [f5]; exact h.core.out
    stat := h.core.stat
    empty := fun hb => by rw [h.core.empty hb]; rfl
    keep := by
      intro q hq
      obtain ⟨h1, h2⟩ := h.core.keep q hq
      exact ⟨by rw [haddr]; exact h1, by rw [f7 q h1]; exact h2⟩ }

theorem step_length_le (eq : K → K → Bool) (op : MapOp K V) (s : List (K × V)) :
    (op.step eq s).2.length ≤ s.length + 1 := by
  cases op with
  | insert k v | entry k f v | entryKey k | modify k f =>
    simp only [MapOp.step]
    split <;> simp [setVal]
  | remove k | removeEntry k =>
    exact Nat.le_succ_of_le (List.length_filter_le _ _)
  | get k | contains k | len | isEmpty => exact Nat.le_succ _
  | clear => simp [MapOp.step]

theorem HRep.runW (L : HLaw E Inv) (he : PartialEquiv E.eq) (hh : HashOk E) :
    ∀ (is : List (MapWrite K V)) {m : HMem K V} {t : HTable σ} {peak : Nat} {bl : List Nat}
    {cs : List (List (Nat × K × V))} {s : List (K × V)},
    HRep True E Inv w wn m t peak bl cs → (ents cs).Perm s → s.length + is.length ≤ maxEntries →
    ∃ os s' d t' m' peak' bl' cs', MapWritten E.eq is s os s' d ∧
      HTable.runW E is t m = .ok (os, t', m') ∧
      HRep True E Inv w wn m' t' peak' bl' cs' ∧ (ents cs').Perm s' ∧
      m'.n.dropped.Perm (m.n.dropped ++ d.filter E.needs) := by
  intro is
  induction is with
  | nil =>
    intro m t peak bl cs s h hp _
    exact ⟨[], s, [], t, m, peak, bl, cs, .nil s, rfl, h, hp, by simp⟩
  | cons i is ih =>
    intro m t peak bl cs s h hp hpk
    rw [List.length_cons] at hpk
    cases i with
    | call op =>
      obtain ⟨g1, g2⟩ := Spec.step_perm he hp h.core.distinct op
      have hl := step_length_le E.eq op s
      obtain ⟨t1, m1, bl1, cs1, e1, e2⟩ := h.step L he hh op (by rw [g2.length_eq]; omega)
      obtain ⟨os, s', d, t2, m2, p2, bl2, cs2, f1, f2, f3, f4, f5⟩ :=
        ih e2.rep (e2.perm.trans g2) (by omega)
      refine ⟨_, s', _, t2, m2, p2, bl2, cs2, .call f1, ?_, f3, f4, ?_⟩
      · simp [HTable.runW, HTable.stepW, e1, f2, g1]
      · rw [List.filter_append, ← List.append_assoc]
        exact f5.trans ((e2.drops.trans
          (((drops_perm he hp h.core.distinct op).filter _).append_left _)).append_right _)
    | sweep ys =>
      obtain ⟨it, m1, cs1, e1, e2, e3, e4, e5⟩ := h.sweep L ys
      obtain ⟨os, s', d, t2, m2, p2, bl2, cs2, f1, f2, f3, f4, f5⟩ :=
        ih e4 (.refl _) (by
          rw [e5, ← hp.length_eq] at *
          simp only [List.length_append, List.length_zipWith, List.length_drop] at *
          omega)
      rw [e5] at f1
      refine ⟨_, s', _, t2, m2, p2, bl2, cs2, .sweep hp f1, ?_, f3, f4, ?_⟩
      · simp [HTable.runW, HTable.stepW, e1, e2, f2]
      · rw [e3] at f5
        rw [List.filter_append, ← List.append_assoc]
        convert f5 using 3
        generalize (ents cs).take ys.length = q
        rw [List.filter_map]
        cases hv : E.ndV <;> simp [Function.comp_def, HEnv.needs, hv]

end

end Verif
