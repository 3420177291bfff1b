import Verif.HashTable.Model
import Verif.HashTable.PolicyProofs
import Verif.Node.Law
import Verif.Vector.Proofs
import Verif.Spec.FiniteMapLemmas

/-! How chains and bucket arrays sit in memory, and how the memory operations act on them. -/

set_option autoImplicit false

namespace Verif
open Spec

variable {K V σ : Type}

/-- Where the segment `ns` ending in pointer `e` starts. -/
def nextOf (ns : List (Nat × K × V)) (e : Nat) : Nat :=
  match ns with
  | [] => e
  | n :: _ => n.1

@[simp] theorem nextOf_nil (e : Nat) : nextOf ([] : List (Nat × K × V)) e = e := rfl
@[simp] theorem nextOf_cons (n : Nat × K × V) (ns : List (Nat × K × V)) (e : Nat) :
    nextOf (n :: ns) e = n.1 := rfl

theorem nextOf_append (a b : List (Nat × K × V)) (e : Nat) :
    nextOf (a ++ b) e = nextOf a (nextOf b e) := by cases a <;> rfl

/-- Linked nodes `ns` (address, key, value), the last one pointing to `e`. -/
def HSeg (m : HNMem K V) : List (Nat × K × V) → Nat → Prop
  | [], _ => True
  | n :: ns, e => n.1 ≠ 0 ∧ m.node n.1 = some (some ⟨n.2.1, n.2.2, nextOf ns e⟩) ∧ HSeg m ns e

theorem HSeg.append {m : HNMem K V} {a b : List (Nat × K × V)} {e : Nat} :
    HSeg m (a ++ b) e ↔ HSeg m a (nextOf b e) ∧ HSeg m b e := by
  induction a with
  | nil => simp [HSeg]
  | cons n a ih => simp only [List.cons_append, HSeg, ih, nextOf_append, and_assoc]

theorem HSeg.frame {m m' : HNMem K V} {e : Nat} : ∀ {ns : List (Nat × K × V)}, HSeg m ns e →
    (∀ n ∈ ns, m'.node n.1 = m.node n.1) → HSeg m' ns e := by
  intro ns
  induction ns with
  | nil => intros; trivial
  | cons n ns ih =>
    intro h hf
    exact ⟨h.1, by rw [hf n (by simp)]; exact h.2.1,
      ih h.2.2 fun x hx => hf x (List.mem_cons_of_mem _ hx)⟩

theorem HSeg.node {m : HMem K V} {e : Nat} {a b : List (Nat × K × V)} {n : Nat × K × V}
    (h : HSeg m.n (a ++ n :: b) e) : n.1 ≠ 0 ∧ m.node n.1 = .ok ⟨n.2.1, n.2.2, nextOf b e⟩ := by
  have := (HSeg.append.1 h).2
  exact ⟨this.1, by simp [HMem.node, NMem.get, this.2.1]⟩

theorem HSeg.nextOf_ne {m : HNMem K V} {ns : List (Nat × K × V)} (h : HSeg m ns 0) :
    nextOf ns 0 = 0 ↔ ns = [] := by
  cases ns with
  | nil => simp
  | cons n ns => simpa using h.1

theorem HSeg.live {m : HNMem K V} {e : Nat} : ∀ {ns : List (Nat × K × V)}, HSeg m ns e →
    ∀ n ∈ ns, m.node n.1 ≠ none := by
  intro ns
  induction ns with
  | nil => simp
  | cons x ns ih =>
    intro h n hn
    rcases List.mem_cons.1 hn with rfl | hn
    · rw [h.2.1]; simp
    · exact ih h.2.2 n hn

/-- The same nodes exist and nothing else changed but the contents of nodes. -/
structure NSame {N D : Type} (m m' : NMem N D) : Prop where
  node : ∀ q, m'.node q = none ↔ m.node q = none
  link : m'.link = m.link
  reg : m'.reg = m.reg
  dropped : m'.dropped = m.dropped

theorem NSame.refl {N D : Type} (m : NMem N D) : NSame m m := ⟨fun _ => Iff.rfl, rfl, rfl, rfl⟩

theorem NSame.trans {N D : Type} {m m' m'' : NMem N D} (h : NSame m m') (h' : NSame m' m'') :
    NSame m m'' :=
  ⟨fun q => (h'.node q).trans (h.node q), h'.link.trans h.link, h'.reg.trans h.reg,
    h'.dropped.trans h.dropped⟩

theorem HMem.modify_ok {m : HMem K V} {p : Nat} {c : HCell K V} (h : m.node p = .ok c)
    (f : HCell K V → HCell K V) :
    ∃ m', m.modify p f = .ok m' ∧ m'.b = m.b ∧
      m'.n.node = Function.update m.n.node p (some (some (f c))) ∧ NSame m.n m'.n := by
  have hn : ∃ o, m.n.node p = some o := by
    unfold HMem.node NMem.get at h
    cases hp : m.n.node p with
    | none => rw [hp] at h; cases h
    | some o => exact ⟨o, rfl⟩
  obtain ⟨o, ho⟩ := hn
  refine ⟨⟨{ m.n with node := Function.update m.n.node p (some (some (f c))) }, m.b⟩, ?_, rfl, rfl,
    ?_, rfl, rfl, rfl⟩
  · simp [HMem.modify, h, NMem.modify, ho]
  · intro q
    by_cases hq : q = p
    · subst hq; simp [ho]
    · simp [Function.update_of_ne hq]

/-! ### Bucket arrays -/

/-- Block `b` holds the words `hs`. -/
def ArrIs (m : Mem Nat) (b : Nat) (hs : List Nat) : Prop :=
  ∃ blk, m.live b = some blk ∧ blk.size = hs.length ∧ ∀ i, i < hs.length → blk.cells i = hs[i]?

theorem ArrIs.congr {m m' : Mem Nat} {b : Nat} {hs : List Nat} (h : ArrIs m b hs)
    (hl : m'.live b = m.live b) : ArrIs m' b hs := by
  unfold ArrIs; rw [hl]; exact h

theorem ArrIs.read {m : Mem Nat} {b : Nat} {hs : List Nat} (h : ArrIs m b hs) {i x : Nat}
    (hx : hs[i]? = some x) : m.read (.loc b i) = .ok x := by
  obtain ⟨blk, h1, h2, h3⟩ := h
  have hi : i < hs.length := by
    by_contra hc
    rw [List.getElem?_eq_none (by omega)] at hx
    cases hx
  exact Mem.read_loc h1 (by omega) (by rw [h3 i hi, hx])

theorem ArrIs.ptrAdd {m : Mem Nat} {b : Nat} {hs : List Nat} (h : ArrIs m b hs) {i n : Nat}
    (hi : i + n ≤ hs.length) : m.ptrAdd (.loc b i) n = .ok (.loc b (i + n)) := by
  obtain ⟨blk, h1, h2, h3⟩ := h
  exact Mem.ptrAdd_loc h1 (by omega)

theorem ArrIs.write {E : HEnv K V σ} {m : HMem K V} {b : Nat} {hs : List Nat} (h : ArrIs m.b b hs)
    (hb : b ≠ E.stat) {i : Nat} (hi : i < hs.length) (x : Nat) :
    ∃ m', m.writeBucket E (.loc b i) x = .ok m' ∧ m'.n = m.n ∧ ArrIs m'.b b (hs.set i x) ∧
      ∀ b', b' ≠ b → m'.b.live b' = m.b.live b' := by
  obtain ⟨blk, h1, h2, h3⟩ := h
  refine ⟨⟨m.n, m.b.setBlock b (some { blk with cells := Function.update blk.cells i (some x) })⟩,
    ?_, rfl, ?_, ?_⟩
  · simp [HMem.writeBucket, hb, Mem.write_loc x h1 (show i < blk.size by omega)]
  · refine ⟨{ blk with cells := Function.update blk.cells i (some x) }, by simp, by simpa using h2, ?_⟩
    intro j hj
    rw [List.length_set] at hj
    by_cases hji : j = i
    · subst hji; simp [hi]
    · simp only [Function.update_of_ne hji, h3 j hj, List.getElem?_set_ne (Ne.symm hji)]
  · intro b' hb'
    simp [Function.update_of_ne hb']

theorem fillNull_block {E : HEnv K V σ} {b : Nat} (hb : b ≠ E.stat) : ∀ (n o : Nat) (m : HMem K V)
    (blk : Block Nat), m.b.live b = some blk → o + n ≤ blk.size →
    ∃ m' blk', fillNull E (.loc b o) n m = .ok m' ∧ m'.n = m.n ∧ m'.b.live b = some blk' ∧
      blk'.size = blk.size ∧
      (∀ j, blk'.cells j = if o ≤ j ∧ j < o + n then some 0 else blk.cells j) ∧
      ∀ b', b' ≠ b → m'.b.live b' = m.b.live b' := by
  intro n
  induction n with
  | zero =>
    intro o m blk h _
    refine ⟨m, blk, rfl, rfl, h, rfl, ?_, fun _ _ => rfl⟩
    intro j
    rw [if_neg (by omega)]
  | succ n ih =>
    intro o m blk h hs
    obtain ⟨m', blk', e1, e2, e3, e4, e5, e6⟩ := ih (o + 1)
      ⟨m.n, m.b.setBlock b (some { blk with cells := Function.update blk.cells o (some 0) })⟩
      { blk with cells := Function.update blk.cells o (some 0) } (by simp)
      (by show o + 1 + n ≤ blk.size; omega)
    refine ⟨m', blk', ?_, e2, e3, e4, ?_, ?_⟩
    · simp [fillNull, HMem.writeBucket, hb, Mem.write_loc 0 h (show o < blk.size by omega),
        Ptr.next, e1]
    · intro j
      rw [e5]
      by_cases hj : j = o
      · subst hj
        rw [if_neg (by omega), if_pos (by omega)]
        simp
      · by_cases h1 : o + 1 ≤ j ∧ j < o + 1 + n
        · rw [if_pos h1, if_pos (by omega)]
        · rw [if_neg h1, if_neg (by omega)]
          simp [Function.update_of_ne hj]
    · intro b' hb'
      rw [e6 b' hb']
      simp [Function.update_of_ne hb']

theorem ArrIs.fill {E : HEnv K V σ} {m : HMem K V} {b : Nat} {hs : List Nat} {s : Nat}
    (h : ArrIs m.b b (hs ++ [s])) (hb : b ≠ E.stat) :
    ∃ m', fillNull E (.loc b 0) hs.length m = .ok m' ∧ m'.n = m.n ∧
      ArrIs m'.b b (List.replicate hs.length 0 ++ [s]) ∧
      ∀ b', b' ≠ b → m'.b.live b' = m.b.live b' := by
  obtain ⟨blk, h1, h2, h3⟩ := h
  obtain ⟨m', blk', e1, e2, e3, e4, e5, e6⟩ := fillNull_block hb hs.length 0 m blk h1
    (by simp at h2; omega)
  refine ⟨m', e1, e2, ⟨blk', e3, by rw [e4, h2]; simp, ?_⟩, e6⟩
  intro i hi
  simp only [List.length_append, List.length_replicate, List.length_cons, List.length_nil,
    Nat.zero_add] at hi
  rw [e5]
  by_cases hlt : i < hs.length
  · rw [if_pos (by omega), List.getElem?_append_left (by simpa using hlt)]
    simp [hlt]
  · rw [if_neg (by omega), h3 i (by simpa using hi), List.getElem?_append_right (by omega),
      List.getElem?_append_right (by simp; omega)]
    simp

/-- A fresh bucket array, filled and terminated (src/internal/hash_table/mod.rs:389-398). -/
theorem newArray_ok {E : HEnv K V σ} {m : HMem K V} (hst : m.b.live E.stat ≠ none) (bc : Nat) :
    ∃ b mb m1 m2 p, (defaultAllocator E.R).alloc (bc + 1) m.b = .ok (.loc b 0, mb) ∧
      b ≠ E.stat ∧ m.b.live b = none ∧
      fillNull E (.loc b 0) (bc + 1) { m with b := mb } = .ok m1 ∧
      m1.b.ptrAdd (.loc b 0) bc = .ok p ∧
      m1.writeBucket E p sentinel = .ok m2 ∧ m2.n = m.n ∧
      ArrIs m2.b b (List.replicate bc 0 ++ [sentinel]) ∧
      ∀ b', b' ≠ b → m2.b.live b' = m.b.live b' := by
  have hf := E.R.fresh m.b (bc + 1)
  have hne : E.R.pick m.b (bc + 1) ≠ E.stat := fun h => hst (by rw [← h]; exact hf)
  obtain ⟨m1, blk1, e1, e2, e3, e4, e5, e6⟩ := fillNull_block (E := E) hne (bc + 1) 0
    { m with b := (E.R.alloc (bc + 1) m.b).2 } ⟨bc + 1, .heap, fun _ => none⟩
    (by simp [RawAlloc.alloc]) (by simp)
  have ha : ArrIs m1.b (E.R.pick m.b (bc + 1)) (List.replicate (bc + 1) 0) := by
    refine ⟨blk1, e3, by simp [e4], ?_⟩
    intro i hi
    rw [List.length_replicate] at hi
    rw [e5, if_pos (by omega)]
    simp [hi]
  obtain ⟨m2, f1, f2, f3, f4⟩ := ha.write (E := E) hne (i := bc) (by simp) sentinel
  refine ⟨E.R.pick m.b (bc + 1), (E.R.alloc (bc + 1) m.b).2, m1, m2, .loc (E.R.pick m.b (bc + 1)) bc,
    by simp [defaultAllocator, RawAlloc.alloc], hne, hf, e1, ?_, f1, by rw [f2, e2], ?_, ?_⟩
  · have := ha.ptrAdd (i := 0) (n := bc) (by simp)
    simpa using this
  · have : (List.replicate (bc + 1) 0).set bc sentinel = List.replicate bc 0 ++ [sentinel] := by
      rw [List.replicate_succ', List.set_append_right _ _ (by simp)]
      simp
    rwa [this] at f3
  · intro b' hb'
    rw [f4 b' hb', e6 b' hb']
    simp [RawAlloc.alloc, Function.update_of_ne hb']

/-! ### Searching a chain -/

theorem findInBucket_ok {E : HEnv K V σ} {m : HMem K V} (k : K) :
    ∀ {ns : List (Nat × K × V)} {fuel : Nat}, HSeg m.n ns 0 → ns.length < fuel →
    findInBucket E fuel (nextOf ns 0) k m =
      .ok ((ns.find? fun n => E.eq n.2.1 k).map Prod.fst) := by
  intro ns
  induction ns with
  | nil =>
    intro fuel _ hf
    obtain ⟨f, rfl⟩ : ∃ f, fuel = f + 1 := ⟨fuel - 1, by omega⟩
    simp [findInBucket]
  | cons n ns ih =>
    intro fuel h hf
    obtain ⟨f, rfl⟩ : ∃ f, fuel = f + 1 := ⟨fuel - 1, by omega⟩
    have hn := (HSeg.node (a := []) h).2
    simp only [findInBucket, nextOf_cons, if_neg h.1, hn, Exec.ok_bind, List.find?_cons]
    cases he : E.eq n.2.1 k with
    | true => simp
    | false =>
      simp only [Bool.false_eq_true, if_false]
      exact ih h.2.2 (by simp at hf; omega)

/-- The slot that points to what follows `c1`, for a chain that starts in slot `s`. -/
def slotAfter (s : HSlot) (c1 : List (Nat × K × V)) : HSlot :=
  match c1.getLast? with
  | none => s
  | some n => .next n.1

theorem slotAfter_cons (s : HSlot) (n : Nat × K × V) (c1 : List (Nat × K × V)) :
    slotAfter s (n :: c1) = slotAfter (.next n.1) c1 := by
  unfold slotAfter
  cases c1 with
  | nil => rfl
  | cons x c1 =>
    rw [List.getLast?_cons_cons, List.getLast?_eq_some_getLast (List.cons_ne_nil x c1)]

theorem removeLoop_ok {E : HEnv K V σ} {m : HMem K V} (k : K) :
    ∀ {c1 c2 : List (Nat × K × V)} {s : HSlot} {fuel : Nat}, HSeg m.n (c1 ++ c2) 0 →
    (c1 ++ c2).length < fuel → s.read m = .ok (nextOf (c1 ++ c2) 0) →
    (∀ n ∈ c1, E.eq n.2.1 k = false) → (∀ n, c2.head? = some n → E.eq n.2.1 k = true) →
    HTable.removeLoop E k fuel s m = .ok (slotAfter s c1, nextOf c2 0) := by
  intro c1
  induction c1 with
  | nil =>
    intro c2 s fuel h hf hs _ h2
    obtain ⟨f, rfl⟩ : ∃ f, fuel = f + 1 := ⟨fuel - 1, by omega⟩
    simp only [List.nil_append] at h hs
    simp only [HTable.removeLoop, hs, Exec.ok_bind]
    cases c2 with
    | nil => simp [slotAfter]
    | cons n c2 =>
      have hn := (HSeg.node (a := []) h).2
      simp [h.1, hn, h2 n rfl, slotAfter]
  | cons n c1 ih =>
    intro c2 s fuel h hf hs h1 h2
    obtain ⟨f, rfl⟩ : ∃ f, fuel = f + 1 := ⟨fuel - 1, by omega⟩
    rw [List.cons_append] at h hs hf
    have hn := (HSeg.node (a := []) h).2
    have := ih (s := .next n.1) (fuel := f) h.2.2 (by simp at hf; simpa using hf)
      (by simp [HSlot.read, hn]) (fun x hx => h1 x (List.mem_cons_of_mem _ hx)) h2
    simp only [HTable.removeLoop, hs, Exec.ok_bind, nextOf_cons, if_neg h.1, hn,
      h1 n (by simp), Bool.false_eq_true, if_false, this, slotAfter_cons]

end Verif
