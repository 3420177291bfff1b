import Verif.HashTable.Ops
import Verif.Spec.Refusals
import Verif.Unwind.KeysLoose

/-!
# Hash tables over an allocator that panics

An allocator of the user may panic instead of returning memory, and the panic may be caught.  The
functions of `HashTable/Model.lean` that allocate are modelled again.  The number `g` says how many
requests for memory the allocator grants during the call before it panics.  A call that the panic
leaves returns `none`, with the state it leaves behind; `key` and `value`, owned by the call, are
dropped by the unwinding.
-/

set_option autoImplicit false

namespace Verif
open Spec

variable {K V σ : Type}

namespace HTable

/-- The second half of `insert_impl` (src/internal/hash_table/mod.rs:372-380): one request for a
node. -/
def addNodeG (E : HEnv K V σ) (g : Nat) (t : HTable σ) (target : Ptr) (k : K) (v : V)
    (m : HMem K V) : Exec (Option Nat × HTable σ × HMem K V) :=
  if g = 0 then .ok (none, t, (m.dropVal E v).dropKey E k)
  else do
    let (p, a, n) ← E.A.alloc E.size E.align t.al m.n
    let m := { m with n := n }
    let h ← m.b.read target
    let n ← m.n.modify p fun _ => some ⟨k, v, h⟩
    let m := { m with n := n }
    let m ← m.writeBucket E target p
    .ok (some p, { t with al := a, count := t.count + 1 }, m)

/-- `insert_impl` (src/internal/hash_table/mod.rs:357-381).  `get_rehash_required` has already
stored the next threshold when `rehash` asks for the new array, as the first thing it does
(src/internal/hash_table/mod.rs:389-395; src/internal/hash_table/rehash_policy.rs:61-87). -/
def insertImplG (E : HEnv K V σ) (g : Nat) (t : HTable σ) (target : Ptr) (k : K) (v : V)
    (m : HMem K V) : Exec (Option Nat × HTable σ × HMem K V) := do
  let (r, nr) ← getRehashRequired t.nextResize t.bucketCount t.count 1
  let t := { t with nextResize := nr }
  match r with
  | some bc =>
    if g = 0 then .ok (none, t, (m.dropVal E v).dropKey E k)
    else do
      let (t, m) ← t.rehash E bc m
      let target ← t.bucketForKey E k m
      t.addNodeG E (g - 1) target k v m
  | none => t.addNodeG E g target k v m

/-- One public call (src/hash_map/mod.rs:37-180; compare `HTable.step`).  Only `insert`
(src/internal/hash_table/mod.rs:122-133) and `or_insert` of an entry
(src/internal/hash_table/entry.rs:41-62) allocate. -/
def stepG (E : HEnv K V σ) (g : Nat) (op : MapOp K V) (t : HTable σ) (m : HMem K V) :
    Exec (Option (MapOut K V) × HTable σ × HMem K V) :=
  match op with
  | .insert k v => do
    let (b, o) ← t.find E k m
    match o with
    | some p => do
      let c ← m.node p
      let m ← m.modify p fun c => { c with val := v }
      .ok (some (.val (some c.val)), t, m.dropKey E k)
    | none => do
      let (o, t, m) ← t.insertImplG E g b k v m
      .ok (o.map fun _ => .val none, t, m)
  | .entry k f v => do
    let (e, m) ← t.entry E k m
    let m ← e.andModify f m
    match e with
    | .occupied p => do
      let m := m.dropVal E v
      let c ← m.node p
      .ok (some (.val (some c.val)), t, m)
    | .vacant b k => do
      let (o, t, m) ← t.insertImplG E g b k v m
      match o with
      | none => .ok (none, t, m)
      | some p => do
        let c ← m.node p
        .ok (some (.val (some c.val)), t, m)
  | op => do
    let (o, t, m) ← t.step E op m
    .ok (some o, t, m)

/-- A history of calls, with the requests granted in each; the caller catches panics and goes on. -/
def runG (E : HEnv K V σ) : List (Nat × MapOp K V) → HTable σ → HMem K V →
    Exec (List (Option (MapOut K V)) × HTable σ × HMem K V)
  | [], t, m => .ok ([], t, m)
  | c :: cs, t, m => do
    let (o, t, m) ← t.stepG E c.1 c.2 m
    let (os, t, m) ← HTable.runG E cs t m
    .ok (o :: os, t, m)

end HTable

/-! ## The growth policy after a panic -/

/-- What is known of the policy: there is an array, or nothing was ever asked of the policy. -/
def PolicyLoose (buckets resize peak : Nat) : Prop :=
  1 < buckets ∨ buckets = 1 ∧ resize = 0 ∧ peak = 0

theorem f32OfU32_ge {n : Nat} (h : 0 < n) : n < 2 * f32OfU32 n := by
  unfold f32OfU32
  split
  · omega
  · have h0 : n ≠ 0 := by omega
    have hu : 2 ^ (Nat.log2 n - 23) ≤ n :=
      Nat.le_trans (Nat.pow_le_pow_right (by decide) (Nat.sub_le _ _)) (Nat.log2_self_le h0)
    have hp : 0 < 2 ^ (Nat.log2 n - 23) := Nat.pow_pos (by decide)
    generalize 2 ^ (Nat.log2 n - 23) = u at hu hp
    have hd : n / u * u + n % u = n := by rw [Nat.mul_comm]; exact Nat.div_add_mod n u
    have hr := Nat.mod_lt n hp
    have h1 : u ≤ n / u * u := by
      have := Nat.mul_le_mul_right u (Nat.div_pos hu hp)
      omega
    simp only
    split
    · rw [Nat.add_mul]; omega
    · omega

theorem primeAtLeast_ge {x : Nat} (hx : x ≤ 4294967291) :
    ∃ p, primeAtLeast x = .ok p ∧ 1 < p ∧ x ≤ p := by
  have hpart : Partitioned primeTable (fun p => decide (p < x)) := by
    intro i j a b hij ha hb hlt
    simp only [decide_eq_true_eq] at hlt ⊢
    obtain ⟨hi, rfl⟩ := List.getElem?_eq_some_iff.1 ha
    obtain ⟨hj, rfl⟩ := List.getElem?_eq_some_iff.1 hb
    rcases Nat.eq_or_lt_of_le hij with rfl | hij
    · exact hlt
    · have := List.pairwise_iff_getElem.1 primeTable_sorted i j hi hj hij
      omega
  obtain ⟨r, e1, e2, e3, e4⟩ := lowerBoundBy_ok hpart
  have hlen : primeTable.length = 257 := by decide +kernel
  have hr : r < primeTable.length := by
    rcases Nat.lt_or_ge r primeTable.length with h | h
    · exact h
    · have := e3 256 4294967291 (by omega) (by decide +kernel)
      simp only [decide_eq_true_eq] at this
      omega
  refine ⟨primeTable[r], ?_, primeTable_gt _ (List.getElem_mem hr), ?_⟩
  · simp only [primeAtLeast, e1, Exec.ok_bind, List.getElem?_eq_getElem hr]
  · have := e4 r primeTable[r] (Nat.le_refl _) (List.getElem?_eq_getElem hr)
    simpa using this

theorem PolicyLoose.law : PolicyLaw PolicyLoose 2147483776 := by
  intro buckets resize peak c h hc hm
  rcases h with h | ⟨rfl, rfl, rfl⟩
  · have hb : (if buckets = 1 then 0 else buckets) = buckets := if_neg (by omega)
    simp only [getRehashRequired, hb]
    rw [if_neg (show ¬ 2 ^ 32 ≤ c + 1 by omega)]
    by_cases h1 : resize < c + 1
    · rw [if_pos h1]
      by_cases h2 : f32OfU32 buckets < f32OfU32 (c + 1)
      · rw [if_pos h2]
        have hge := f32OfU32_ge (show 0 < buckets by omega)
        obtain ⟨p, e1, e2, e3⟩ := primeAtLeast_ge (x := u32OfF32 (max (f32OfU32 (c + 1))
          (2 * f32OfU32 buckets))) (grow_room (by omega) h2)
        have hlt := f32OfU32_half (show c + 1 ≤ 2147483776 by omega)
        have hbp : buckets < p := by unfold u32OfF32 at e3; omega
        refine ⟨some p, _, by rw [e1]; rfl, .inl ?_, by simp, ?_⟩
        · simp only [Option.getD_some]; omega
        · rintro b ⟨⟩; exact hbp
      · rw [if_neg h2]
        exact ⟨none, _, rfl, .inl h, fun _ => h, by simp⟩
    · rw [if_neg h1]
      exact ⟨none, _, rfl, .inl h, fun _ => h, by simp⟩
  · obtain rfl : c = 0 := by omega
    refine ⟨some 2, 2, policy_first, .inl (by decide), by simp, ?_⟩
    rintro b ⟨⟩; decide

theorem PolicyAt.loose {b r pk : Nat} (h : PolicyAt b r pk) : PolicyLoose b r pk := by
  rcases h with ⟨rfl, rfl, rfl⟩ | ⟨g, hg, rfl, _⟩
  · exact .inr ⟨rfl, rfl, rfl⟩
  · exact .inl (stage_facts hg).1

/-! ## One call -/

variable {E : HEnv K V σ} {Inv : σ → HNMem K V → List Nat → Prop} {w : World Nat}
  {wn : Nat → Option (Option (HCell K V))} {m : HMem K V} {t : HTable σ} {bl : List Nat}
  {cs : List (List (Nat × K × V))} {peak : Nat}

theorem addNodeG_granted {g : Nat} (hg : g ≠ 0) (tgt : Ptr) (k : K) (v : V) (t : HTable σ)
    (m : HMem K V) :
    t.addNodeG E g tgt k v m = (do
      let (p, a, n) ← E.A.alloc E.size E.align t.al m.n
      let m : HMem K V := { m with n := n }
      let h ← m.b.read tgt
      let n ← m.n.modify p fun _ => some ⟨k, v, h⟩
      let m : HMem K V := { m with n := n }
      let m ← m.writeBucket E tgt p
      .ok (some p, { t with al := a, count := t.count + 1 }, m)) := if_neg hg

/-- A new key: either it is as if nothing panicked, or the table has what it had. -/
theorem HRepP.insertImplG (L : HLaw E Inv) (he : PartialEquiv E.eq)
    (h : HRepP PolicyLoose True E Inv w wn m t peak bl cs) {g : Nat}
    (hg : 1 < t.bucketCount ∨ g ≠ 0) {k : K} {v : V} (hmax : t.count < 2147483776) {target : Ptr}
    (htgt : t.bucketForKey E k m = .ok target) :
    (t.insertImplG E g target k v m = (do
        let (p, t, m) ← t.insertImpl E target k v m
        .ok (some p, t, m))) ∨
    (g < 2 ∧ ∃ (t' : HTable σ) (m' : HMem K V) (bl' : List Nat) (cs' : List (List (Nat × K × V))),
      t.insertImplG E g target k v m = .ok (none, t', m') ∧
      HRepP PolicyLoose True E Inv w wn m' t' peak bl' cs' ∧ cs'.flatten.Perm cs.flatten ∧
      bl <:+ bl' ∧ t'.bucketCount ≠ 1 ∧ t'.count = t.count ∧
      m'.n.dropped = m.n.dropped ++ [Sum.inr v, Sum.inl k].filter E.needs) := by
  obtain ⟨r, nr, p1, p2, tgt, t1, m1, bl1, cs1, e1, e2, e3, e4, e5, e6, e7, e8, e9, e10, e11, e12, e13⟩ :=
    h.beforeNew PolicyLoose.law L (fun _ => he) (k := k) hmax htgt
  have hdrops : ∀ m1 : HMem K V, m1.n.dropped = m.n.dropped →
      ((m1.dropVal E v).dropKey E k).n.dropped =
        m.n.dropped ++ [Sum.inr v, Sum.inl k].filter E.needs := by
    intro m1 hm1
    rw [dropKey_dropped, dropVal_dropped, hm1, List.append_assoc, ← List.filter_append]
    rfl
  have hleft : ∀ {m2 : HMem K V}, m2.n.dropped = m.n.dropped →
      HCore True E Inv w wn m2 t1 bl1 cs1 →
      HRepP PolicyLoose True E Inv w wn ((m2.dropVal E v).dropKey E k) t1 peak bl1 cs1 := by
    intro m2 _ hc
    have hpk := h.peak
    have h1 := hc.pos
    exact ⟨(hc.dropVal L v).dropKey L k, by rw [e9, h.count, e4.length_eq], .inl (by omega),
      by omega, ⟨fun hb => absurd hb e6, fun hb => absurd hb e12⟩⟩
  cases r with
  | none =>
    simp only [Except.ok.injEq, Prod.mk.injEq] at e1
    obtain ⟨rfl, rfl, rfl⟩ := e1
    simp only [HTable.insertImplG, HTable.insertImpl, p1, Exec.ok_bind]
    by_cases hg0 : g = 0
    · refine .inr ⟨by omega, _, _, bl1, cs1, by simp only [HTable.addNodeG, if_pos hg0],
        hleft rfl e2, e4, e5, e12, rfl, hdrops _ rfl⟩
    · refine .inl ?_
      rw [addNodeG_granted hg0]
      simp only [bind_assoc, Exec.ok_bind]
  | some b =>
    dsimp only at e1
    obtain ⟨⟨t2, m2⟩, q1, e1⟩ := Exec.of_bind_ok e1
    obtain ⟨tg, q2, e1⟩ := Exec.of_bind_ok e1
    simp only [Except.ok.injEq, Prod.mk.injEq] at e1
    obtain ⟨rfl, rfl, rfl⟩ := e1
    simp only [HTable.insertImplG, HTable.insertImpl, p1, Exec.ok_bind]
    by_cases hg0 : g = 0
    · have hb := hg.resolve_right (by omega)
      have hc0 := h.core.resize nr
      refine .inr ⟨by omega, { t with nextResize := nr }, (m.dropVal E v).dropKey E k, bl, cs,
        by rw [if_pos hg0],
        ⟨(hc0.dropVal L v).dropKey L k, h.count, .inl hb, h.peak, h.arrs⟩, .refl _,
        List.suffix_refl _, by simp only; omega, rfl, hdrops _ rfl⟩
    · rw [if_neg hg0]
      simp only [q1, q2, Exec.ok_bind]
      by_cases hg1 : g - 1 = 0
      · refine .inr ⟨by omega, _, _, bl1, cs1, by simp only [HTable.addNodeG, if_pos hg1],
          hleft e10 e2, e4, e5, e12, e9, hdrops _ e10⟩
      · refine .inl ?_
        rw [addNodeG_granted hg1]
        simp only [bind_assoc, Exec.ok_bind]

/-- What a call does that no panic leaves. -/
def HTable.plain (E : HEnv K V σ) (op : MapOp K V) (t : HTable σ) (m : HMem K V) :
    Exec (Option (MapOut K V) × HTable σ × HMem K V) := do
  let (o, t, m) ← t.step E op m
  .ok (some o, t, m)

/-- One call: as if nothing panicked, or a panic after which the map has what it had. -/
theorem HRepP.stepG (L : HLaw E Inv) (he : PartialEquiv E.eq) (hh : HashOk E)
    (h : HRepP PolicyLoose True E Inv w wn m t peak bl cs) {g : Nat}
    (hg : 1 < t.bucketCount ∨ g ≠ 0) (op : MapOp K V) (hmax : t.count < 2147483776) :
    t.stepG E g op m = t.plain E op m ∨
    (g < 2 ∧ op.newKey E.eq (ents cs) = true ∧
      ∃ (t' : HTable σ) (m' : HMem K V) (bl' : List Nat) (cs' : List (List (Nat × K × V))),
      t.stepG E g op m = .ok (none, t', m') ∧
      HRepP PolicyLoose True E Inv w wn m' t' peak bl' cs' ∧ (ents cs').Perm (ents cs) ∧
      bl <:+ bl' ∧ t'.bucketCount ≠ 1 ∧
      m'.n.dropped.Perm (m.n.dropped ++ op.passed.filter E.needs)) := by
  have hsw : ∀ (k : K) (v : V) (l : List (K ⊕ V)), (l ++ [Sum.inr v, Sum.inl k].filter E.needs).Perm
      (l ++ [Sum.inl k, Sum.inr v].filter E.needs) := fun k v l =>
    List.Perm.append_left _ ((List.Perm.swap _ _ _).filter _)
  cases op with
  | insert k v =>
    obtain ⟨l1, c, l2, hcs, g1, g2, g3, hcase⟩ := h.core.locate he hh k
    rcases hcase with ⟨c1, n, c2, rfl, hk, hc1, hlu, hf⟩ | ⟨hc, hlu, hf⟩
    · left
      simp only [HTable.stepG, HTable.plain, HTable.step, HTable.insert, hf, Exec.ok_bind,
        bind_assoc]
    · rcases h.insertImplG L he hg (v := v) hmax g2 with e | ⟨e0, t', m', bl', cs', e1, e2, e3, e4,
        e5, e6, e7⟩
      · left
        simp only [HTable.stepG, HTable.plain, HTable.step, HTable.insert, hf, Exec.ok_bind, e,
          bind_assoc, Option.map_some]
      · right
        refine ⟨e0, by simp [MapOp.newKey, hlu], t', m', bl', cs', ?_, e2, e3.map _, e4, e5,
          by rw [e7]; exact hsw _ _ _⟩
        simp only [HTable.stepG, hf, Exec.ok_bind, e1, Option.map_none]
  | entry k f v =>
    obtain ⟨l1, c, l2, hcs, g1, g2, g3, hcase⟩ := h.core.locate he hh k
    rcases hcase with ⟨c1, n, c2, rfl, hk, hc1, hlu, hf⟩ | ⟨hc, hlu, hf⟩
    · left
      simp only [HTable.stepG, HTable.plain, HTable.step, HTable.entry, hf, Exec.ok_bind,
        bind_assoc, HEntry.orInsert, HEntry.orInsertWith, Bool.false_eq_true, if_false]
    · rcases h.insertImplG L he hg (v := v) hmax g2 with e | ⟨e0, t', m', bl', cs', e1, e2, e3, e4,
        e5, e6, e7⟩
      · left
        simp only [HTable.stepG, HTable.plain, HTable.step, HTable.entry, hf, Exec.ok_bind, e,
          bind_assoc, HEntry.andModify, HEntry.orInsert, HEntry.orInsertWith, if_true]
      · right
        refine ⟨e0, by simp [MapOp.newKey, hlu], t', m', bl', cs', ?_, e2, e3.map _, e4, e5,
          by rw [e7]; exact hsw _ _ _⟩
        simp only [HTable.stepG, HTable.entry, hf, Exec.ok_bind, HEntry.andModify, e1]
  | _ => left; rfl

theorem length_step_le (eq : K → K → Bool) (op : MapOp K V) (s : List (K × V)) :
    (op.step eq s).2.length ≤ s.length + 1 := by
  cases op <;> simp only [MapOp.step] <;> first
    | (split <;> simp [setVal])
    | simp
    | skip
  all_goals exact (List.length_filter_le _ _).trans (Nat.le_succ _)

/-- A history of calls some of which panic. -/
theorem HRepP.runG (L : HLaw E Inv) (he : PartialEquiv E.eq) (hh : HashOk E) :
    ∀ (calls : List (Nat × MapOp K V)) {m : HMem K V} {t : HTable σ} {peak : Nat} {bl : List Nat}
      {cs : List (List (Nat × K × V))} (_ : HRepP PolicyLoose True E Inv w wn m t peak bl cs)
      (_ : 1 < t.bucketCount ∨ ∀ c ∈ calls, c.1 ≠ 0)
      (_ : (ents cs).length + calls.length ≤ 2147483776),
    ∃ (outs : List (Option (MapOut K V))) (t' : HTable σ) (m' : HMem K V) (peak' : Nat)
      (bl' : List Nat) (cs' : List (List (Nat × K × V))),
      HTable.runG E calls t m = .ok (outs, t', m') ∧ outs.length = calls.length ∧
      (∀ p ∈ calls.zip outs, p.2 = none → p.1.1 < 2 ∧ p.1.2.mayAdd = true) ∧
      outs.filterMap id = (MapOp.run E.eq (answered (calls.map Prod.snd) outs) (ents cs)).1 ∧
      HRepP PolicyLoose True E Inv w wn m' t' peak' bl' cs' ∧
      (ents cs').Perm (MapOp.run E.eq (answered (calls.map Prod.snd) outs) (ents cs)).2 ∧
      m'.n.dropped.Perm (m.n.dropped ++
        (MapOp.allDrops E.eq (answered (calls.map Prod.snd) outs) (ents cs) ++
          (panicked (calls.map Prod.snd) outs).flatMap MapOp.passed).filter E.needs) ∧ bl <:+ bl' := by
  intro calls
  induction calls with
  | nil =>
    intro m t peak bl cs h _ _
    exact ⟨[], t, m, peak, bl, cs, rfl, rfl, by simp, rfl, h, .refl _,
      by simp [answered, panicked, MapOp.allDrops], List.suffix_refl _⟩
  | cons c calls ih =>
    intro m t peak bl cs h hg hmax
    obtain ⟨g, op⟩ := c
    simp only [List.length_cons] at hmax
    have hcnt : t.count = (ents cs).length := by rw [ents_length]; exact h.count
    have hg1 : 1 < t.bucketCount ∨ g ≠ 0 := hg.imp id fun h => h (g, op) (by simp)
    have hd := h.core.distinct
    rcases h.stepG L he hh hg1 op (by omega) with e | ⟨e0, ek, t1, m1, bl1, cs1, e1, e2, e3, e4, e5, e6⟩
    · obtain ⟨t1, m1, bl1, cs1, f1, f2⟩ := h.step PolicyLoose.law L he hh op (by
        have := length_step_le E.eq op (ents cs)
        omega)
      have hlen := length_step_le E.eq op (ents cs)
      obtain ⟨outs, t', m', peak', bl', cs', r1, r2, r3, r4, r5, r6, r7, r8⟩ := ih f2.rep (by
          rcases hg with hg | hg
          · left
            have hp := f2.rep.policy
            rcases hp with hp | ⟨hp, _⟩
            · exact hp
            · have hb := f2.rep.arrs.2 hp
              have hs := f2.arrays
              rw [hb] at hs
              have := h.arrs.1 (List.suffix_nil.1 hs)
              omega
          · exact .inr fun c hc => hg c (List.mem_cons_of_mem _ hc))
        (by rw [f2.perm.length_eq]; omega)
      obtain ⟨q1, q2⟩ := run_perm he (answered (calls.map Prod.snd) outs) f2.perm
        f2.rep.core.distinct
      have q3 := (allDrops_perm he (answered (calls.map Prod.snd) outs) f2.perm
        f2.rep.core.distinct).1
      refine ⟨some (op.step E.eq (ents cs)).1 :: outs, t', m', peak', bl', cs', ?_, by simp [r2], ?_,
        ?_, r5, ?_, ?_, f2.arrays.trans r8⟩
      · simp only [HTable.runG, e, HTable.plain, f1, Exec.ok_bind, r1]
      · intro p hp hn
        rw [List.zip_cons_cons, List.mem_cons] at hp
        rcases hp with rfl | hp
        · cases hn
        · exact r3 p hp hn
      · simp only [List.map_cons, answered, MapOp.run, List.filterMap_cons_some (f := id) rfl]
        rw [r4, q1]
      · simp only [List.map_cons, answered, MapOp.run]
        exact r6.trans q2
      · simp only [List.map_cons, answered, panicked, MapOp.allDrops]
        refine r7.trans ((List.Perm.append f2.drops ((q3.append_right _).filter _)).trans ?_)
        simp only [List.filter_append, List.append_assoc]
        exact .refl _
    · obtain ⟨outs, t', m', peak', bl', cs', r1, r2, r3, r4, r5, r6, r7, r8⟩ := ih e2 (by
          have := e2.core.pos
          left; omega) (by rw [e3.length_eq]; omega)
      obtain ⟨q1, q2⟩ := run_perm he (answered (calls.map Prod.snd) outs) e3
        e2.core.distinct
      have q3 := (allDrops_perm he (answered (calls.map Prod.snd) outs) e3
        e2.core.distinct).1
      refine ⟨none :: outs, t', m', peak', bl', cs', ?_, by simp [r2], ?_, ?_, r5, ?_, ?_,
        e4.trans r8⟩
      · simp only [HTable.runG, e1, Exec.ok_bind, r1]
      · intro p hp hn
        rw [List.zip_cons_cons, List.mem_cons] at hp
        rcases hp with rfl | hp
        · refine ⟨e0, ?_⟩
          cases op <;> first | rfl | cases ek
        · exact r3 p hp hn
      · simp only [List.map_cons, answered, List.filterMap_cons_none (f := id) rfl]
        rw [r4, q1]
      · simp only [List.map_cons, answered]
        exact r6.trans q2
      · simp only [List.map_cons, answered, panicked, List.flatMap_cons]
        refine r7.trans ?_
        refine (List.Perm.append e6 ((q3.append_right _).filter _)).trans ?_
        rw [List.append_assoc]
        refine List.Perm.append_left _ ?_
        simp only [List.filter_append]
        rw [← List.append_assoc, ← List.append_assoc]
        exact List.perm_append_comm.append_right _

end Verif
