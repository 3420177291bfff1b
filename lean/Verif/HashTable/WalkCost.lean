import Verif.HashTable.Iter

/-!
# The buckets a loop over a hash map looks at

The iterator of `HashTable/Model.lean` again, returning also how many buckets were read;
`HIter.nextT_fst` says that it is the same iterator otherwise.
-/

set_option autoImplicit false

namespace Verif
open Spec

variable {K V σ : Type}

/-- `next_bucket` (src/internal/hash_table/iter.rs:157-162), with the number of buckets read. -/
def nextBucketT (m : HMem K V) : Ptr → Nat → Exec ((Nat × Ptr × Nat) × Nat)
  | p, 0 => .ok ((0, p, 0), 0)
  | p, n + 1 => do
    let h ← m.b.read p
    if h = 0 then do
      let (r, c) ← nextBucketT m p.next n
      .ok (r, c + 1)
    else .ok ((h, p.next, n), 1)

/-- `iter`, `iter_mut` (src/internal/hash_table/mod.rs:142-151,
src/internal/hash_table/iter.rs:146-154, 255-259, 327-331), likewise. -/
def HTable.iterT (t : HTable σ) (m : HMem K V) : Exec (HIter × Nat) := do
  let ((h, p, n), c) ← nextBucketT m t.buckets t.bucketCount
  .ok (⟨p, n, h⟩, c)

/-- `next` (src/internal/hash_table/iter.rs:168-184, 265-267, 337-339), likewise. -/
def HIter.nextT (it : HIter) (m : HMem K V) : Exec ((Option Nat × HIter) × Nat) :=
  if it.node = 0 then .ok ((none, it), 0)
  else do
    let c ← m.node it.node
    if c.next = 0 then do
      let ((h, p, n), k) ← nextBucketT m it.bucket it.rest
      .ok ((some it.node, ⟨p, n, h⟩), k)
    else .ok ((some it.node, { it with node := c.next }), 0)

/-- A loop over what is left of an iterator, until it returns `None`: the entries seen, and the
buckets read.  The first argument bounds the number of iterations. -/
def HIter.drainT (m : HMem K V) : Nat → HIter → Exec (List (K × V) × Nat)
  | 0, _ => .error .ub
  | fuel + 1, it => do
    let ((p, it), k) ← it.nextT m
    match p with
    | none => .ok ([], k)
    | some p => do
      let c ← m.node p
      let (es, k') ← HIter.drainT m fuel it
      .ok ((c.key, c.val) :: es, k + k')

/-- The loop `for e in map.iter()` (src/hash_map/mod.rs:102-104,
src/internal/hash_table/mod.rs:142-144): the entries seen, and the buckets read. -/
def HTable.walkT (fuel : Nat) (t : HTable σ) (m : HMem K V) : Exec (List (K × V) × Nat) := do
  let (it, k) ← t.iterT m
  let (es, k') ← it.drainT m fuel
  .ok (es, k + k')

theorem nextBucketT_fst (m : HMem K V) : ∀ (n : Nat) (p : Ptr),
    (nextBucketT m p n).map Prod.fst = nextBucket m p n := by
  intro n
  induction n with
  | zero => intro p; rfl
  | succ n ih =>
    intro p
    unfold nextBucketT nextBucket
    cases hr : m.b.read p with
    | error e => rfl
    | ok h =>
      simp only [Exec.ok_bind]
      by_cases h0 : h = 0
      · rw [if_pos h0, if_pos h0, ← ih]
        cases nextBucketT m p.next n <;> rfl
      · rw [if_neg h0, if_neg h0]; rfl

/-- What was read is no longer left. -/
theorem nextBucketT_cost {m : HMem K V} : ∀ {n : Nat} {p p' : Ptr} {h n' : Nat},
    nextBucket m p n = .ok (h, p', n') → ∃ c, nextBucketT m p n = .ok ((h, p', n'), c) ∧
      c + n' = n := by
  intro n
  induction n with
  | zero =>
    intro p p' h n' he
    simp only [nextBucket, Except.ok.injEq, Prod.mk.injEq] at he
    obtain ⟨rfl, rfl, rfl⟩ := he
    exact ⟨0, rfl, rfl⟩
  | succ n ih =>
    intro p p' h n' he
    unfold nextBucket at he
    unfold nextBucketT
    cases hr : m.b.read p with
    | error e => rw [hr] at he; simp at he
    | ok x =>
      rw [hr] at he
      simp only [Exec.ok_bind] at he ⊢
      by_cases h0 : x = 0
      · rw [if_pos h0] at he ⊢
        obtain ⟨c, e1, e2⟩ := ih he
        exact ⟨c + 1, by rw [e1]; rfl, by omega⟩
      · rw [if_neg h0] at he ⊢
        simp only [Except.ok.injEq, Prod.mk.injEq] at he
        obtain ⟨rfl, rfl, rfl⟩ := he
        exact ⟨1, rfl, by omega⟩

theorem HIter.nextT_fst (it : HIter) (m : HMem K V) :
    (it.nextT m).map Prod.fst = it.next m := by
  unfold HIter.nextT HIter.next
  by_cases h0 : it.node = 0
  · rw [if_pos h0, if_pos h0]; rfl
  · rw [if_neg h0, if_neg h0]
    cases m.node it.node with
    | error e => rfl
    | ok c =>
      simp only [Exec.ok_bind]
      by_cases h1 : c.next = 0
      · rw [if_pos h1, if_pos h1, ← nextBucketT_fst]
        cases nextBucketT m it.bucket it.rest <;> rfl
      · rw [if_neg h1, if_neg h1]; rfl

theorem HIter.nextT_cost {it it' : HIter} {m : HMem K V} {o : Option Nat}
    (he : it.next m = .ok (o, it')) : ∃ c, it.nextT m = .ok ((o, it'), c) ∧
      c + it'.rest = it.rest := by
  unfold HIter.next at he
  unfold HIter.nextT
  by_cases h0 : it.node = 0
  · rw [if_pos h0] at he ⊢
    simp only [Except.ok.injEq, Prod.mk.injEq] at he
    obtain ⟨rfl, rfl⟩ := he
    exact ⟨0, rfl, by omega⟩
  · rw [if_neg h0] at he ⊢
    cases hc : m.node it.node with
    | error e => rw [hc] at he; simp at he
    | ok c =>
      rw [hc] at he
      simp only [Exec.ok_bind] at he ⊢
      by_cases h1 : c.next = 0
      · rw [if_pos h1] at he ⊢
        cases hb : nextBucket m it.bucket it.rest with
        | error e => rw [hb] at he; simp at he
        | ok r =>
          obtain ⟨h, p, n⟩ := r
          rw [hb] at he
          simp only [Exec.ok_bind, Except.ok.injEq, Prod.mk.injEq] at he
          obtain ⟨rfl, rfl⟩ := he
          obtain ⟨k, e1, e2⟩ := nextBucketT_cost hb
          exact ⟨k, by rw [e1]; rfl, e2⟩
      · rw [if_neg h1] at he ⊢
        simp only [Except.ok.injEq, Prod.mk.injEq] at he
        obtain ⟨rfl, rfl⟩ := he
        exact ⟨0, rfl, by simp⟩

theorem IterAt.drainT {m : HMem K V} {b : Nat} {post : List Nat} : ∀ (fuel : Nat) {it : HIter}
    {c : List (Nat × K × V)} {ds : List (List (Nat × K × V))}, IterAt m b post it c ds →
    (c ++ ds.flatten).length < fuel →
    it.drainT m fuel = .ok ((c ++ ds.flatten).map Prod.snd, it.rest) := by
  intro fuel
  induction fuel with
  | zero => intro it c ds _ hf; omega
  | succ fuel ih =>
    intro it c ds h hf
    obtain ⟨it', c', ds', e1, e2, e3⟩ := h.next
    obtain ⟨k, f1, f2⟩ := HIter.nextT_cost e1
    cases c with
    | nil =>
      have hd := h.done rfl
      subst hd
      have hr := h.rest
      simp only [List.length_nil] at hr
      simp only [HIter.drainT, f1, Exec.ok_bind, List.flatten_nil, List.append_nil, List.head?_nil,
        Option.map_none, List.map_nil, hr]
      have : k = 0 := by omega
      rw [this]
    | cons n c =>
      have hnode := (HSeg.node (a := []) h.seg).2
      have hlen : (c' ++ ds'.flatten).length < fuel := by
        rw [e3]; simp at hf ⊢; omega
      have := ih e2 hlen
      rw [e3] at this
      simp only [HIter.drainT, f1, Exec.ok_bind, List.cons_append, List.head?_cons,
        Option.map_some, hnode, this, List.tail_cons, List.map_cons, Except.ok.injEq,
        Prod.mk.injEq, true_and]
      exact f2

theorem HCore.walkT {ok : Prop} {E : HEnv K V σ} {Inv : σ → HNMem K V → List Nat → Prop}
    {w : World Nat} {wn : Nat → Option (Option (HCell K V))} {m : HMem K V} {t : HTable σ}
    {bl : List Nat} {cs : List (List (Nat × K × V))} (h : HCore ok E Inv w wn m t bl cs)
    {fuel : Nat} (hf : cs.flatten.length < fuel) :
    t.walkT fuel m = .ok (cs.flatten.map Prod.snd, t.bucketCount) := by
  obtain ⟨it, c, ds, e1, e2, e3⟩ := h.iter
  unfold HTable.iter at e1
  cases hb : nextBucket m t.buckets t.bucketCount with
  | error e => rw [hb] at e1; simp at e1
  | ok r =>
    obtain ⟨hd, p, n⟩ := r
    rw [hb] at e1
    simp only [Exec.ok_bind, Except.ok.injEq] at e1
    subst e1
    obtain ⟨k, f1, f2⟩ := nextBucketT_cost hb
    have g := e2.drainT fuel (by rw [e3]; exact hf)
    simp only [HTable.walkT, HTable.iterT, f1, Exec.ok_bind, g, e3, f2]

/-- How many buckets there are, by the most entries there ever were. -/
theorem PolicyAt.buckets_le {buckets resize peak : Nat} (h : PolicyAt buckets resize peak) :
    100 * buckets ≤ 215 * peak + 100 := by
  have hall : stages.all (fun g => decide (100 * g.buckets ≤ 215 * g.lo)) = true := by
    decide +kernel
  rcases h with ⟨_, rfl, _⟩ | ⟨g, hg, rfl, _, h1, _⟩
  · omega
  · have := List.all_eq_true.1 hall g hg
    simp only [decide_eq_true_eq] at this
    omega

end Verif
