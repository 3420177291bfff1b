import Verif.Props.Handed
import Verif.Props.MachineModest

/-!
# C161: containers that C++ code built, on a 64-bit machine

`Handed/Model.lean` says what such containers look like; they may have any spare room. Here the calls
compute with `usize` and byte sizes, with (`.debug`) or without (`.release`) overflow checks, and the
system allocator never runs out of memory (`R.total`).
-/

set_option autoImplicit false

namespace Verif
open Spec

variable {α K V : Type}

/-- C161 for vectors. If all capacities of a history can exist, it returns what it returns on the
elements as a mathematical sequence, or panics if that does, and dropping the vector gives back
exactly its block, every element having been handed out or dropped once. If one of them cannot exist
the history panics; in a release build, provided that each request is for fewer than 2^63 bytes. -/
theorem C161_handed_vector (B : Build) {size align : Nat} (hT : TypeLayout size align)
    (R : RawAlloc α) (nd : Bool) {m : Mem α} {v : Vec} {bs : List Nat} {cap : Nat} {xs : List α}
    (h : HandedVec m v bs cap xs) (hcap : Representable size align cap) (ops : List (SeqOp α))
    (hops : nd = true → ∀ op ∈ ops, op.isSlice = false) :
    ((∀ c ∈ SeqOp.caps ops xs cap, Representable size align c) →
      match SeqOp.run ops xs with
      | .error e => Vec.runM B (byteAllocator B size align R.total) nd ops v m = .error e
      | .ok (outs, ys) => ∃ v' m' m'' drops,
          Vec.runM B (byteAllocator B size align R.total) nd ops v m = .ok (outs, v', m') ∧
          v'.asSlice m' = .ok ys ∧
          v'.clear (byteAllocator B size align R.total) nd m' = .ok (Vec.new, m'') ∧
          (∀ b, m''.live b = if b ∈ bs then none else m.live b) ∧
          m''.dropped = m.dropped ++ drops ∧
          (nd = true →
            (xs ++ ops.flatMap SeqOp.movedIn).Perm (outs.flatMap Out.movedOut ++ drops))) ∧
    ((∃ c ∈ SeqOp.caps ops xs cap, ¬ Representable size align c) →
      (B = .release → ∀ op ∈ ops, op.wanted * size < 2 ^ 63) →
      Vec.runM B (byteAllocator B size align R.total) nd ops v m = .error .panic) := by
  have ha : ∀ c, 0 < c → Representable size align c → ∀ m : Mem α,
      (byteAllocator B size align R.total).alloc c m = (defaultAllocator R).alloc c m :=
    fun c h0 hc m => byteAllocator_alloc B hT R h0 hc m
  have hd : ∀ c, Representable size align c → ∀ (p : Ptr) (m : Mem α),
      (byteAllocator B size align R.total).dealloc p c m = (defaultAllocator R).dealloc p c m :=
    fun c hc p m => byteAllocator_dealloc B hT R.total R hc p m
  constructor
  · intro hfit
    obtain ⟨heq, hend⟩ := runM_agree B (P := Representable size align) (fun c hc => hT.rep_lt hc) ha hd
      (defaultAllocator_lawful R) nd ops hops h.inv hcap hfit
    obtain ⟨_, _, _, hrun⟩ := C128_handed_vector R nd h ops hops
    rw [heq]
    cases hs : SeqOp.run ops xs with
    | error e => rw [hs] at hrun; exact hrun
    | ok r =>
      obtain ⟨os, ys⟩ := r
      rw [hs] at hrun
      obtain ⟨v', m', m'', drops, e1, e2, e3, e4⟩ := hrun
      obtain ⟨xs', cap', hi', hcap'⟩ := hend _ _ _ e1
      exact ⟨v', m', m'', drops, e1, e2, (clear_agree hd nd hi' hcap').trans e3, e4⟩
  · intro hover hasks
    exact runM_refuses B hT (fun _ hn hb m => byteAllocator_refuses B hT R.total hn hb m) ha hd
      (defaultAllocator_lawful R) nd ops hops h.inv hcap hasks hover

/-- C161 for fixed vectors, inline or spilled; destroying one gives back its buffer and exactly its
overflow block. -/
theorem C161_handed_fixed_vector (B : Build) {size align : Nat} (hT : TypeLayout size align)
    (R : RawAlloc α) (nd : Bool) {m : Mem α} {f : FVec} {bs : List Nat} {cap : Nat} {xs : List α}
    (h : HandedFixedVec m f bs cap xs) (hcap : Representable size align cap) (ops : List (SeqOp α))
    (hops : nd = true → ∀ op ∈ ops, op.isSlice = false) :
    ((∀ c ∈ SeqOp.caps ops xs cap, Representable size align c) →
      match SeqOp.run ops xs with
      | .error e => f.runM B size align R.total nd ops m = .error e
      | .ok (outs, ys) => ∃ f' m' m'' drops,
          f.runM B size align R.total nd ops m = .ok (outs, f', m') ∧ f'.vec.asSlice m' = .ok ys ∧
          f'.destroyM B size align R.total nd m' = .ok m'' ∧
          (∀ b, m''.live b = if b ∈ f.buf :: bs then none else m.live b) ∧
          m''.dropped = m.dropped ++ drops ∧
          (nd = true →
            (xs ++ ops.flatMap SeqOp.movedIn).Perm (outs.flatMap Out.movedOut ++ drops))) ∧
    ((∃ c ∈ SeqOp.caps ops xs cap, ¬ Representable size align c) →
      (B = .release → ∀ op ∈ ops, op.wanted * size < 2 ^ 63) →
      f.runM B size align R.total nd ops m = .error .panic) := by
  have hi1 := h.inv
  have hA := fixedAllocator_lawful R f.buf
  rw [← hi1.pool] at hA
  have ha : ∀ c, 0 < c → Representable size align c → ∀ m : Mem α,
      (fixedAllocatorM B size align R.total f.pool).alloc c m = (fixedAllocator R f.pool).alloc c m :=
    fun c h0 hc m => fixedAllocatorM_alloc B hT R f.pool h0 hc m
  have hd : ∀ c, Representable size align c → ∀ (p : Ptr) (m : Mem α),
      (fixedAllocatorM B size align R.total f.pool).dealloc p c m =
        (fixedAllocator R f.pool).dealloc p c m :=
    fun c hc p m => fixedAllocatorM_dealloc B hT R.total R f.pool hc p m
  rw [FVec.runM_eq_map]
  constructor
  · intro hfit
    obtain ⟨heq, hend⟩ := runM_agree B (P := Representable size align) (fun c hc => hT.rep_lt hc) ha hd
      hA nd ops hops hi1.inv hcap hfit
    have hrun := VInv.run hA nd ops hops hi1.inv
    rw [heq]
    cases hs : SeqOp.run ops xs with
    | error e => rw [hs] at hrun; simp only at hrun; simp [hrun, Except.map]
    | ok r =>
      obtain ⟨os, ys⟩ := r
      rw [hs] at hrun
      obtain ⟨v, m', ds, cap', he, hi, hds, hp⟩ := hrun
      obtain ⟨xs', cap'', hi', hcap'⟩ := hend _ _ _ he
      obtain ⟨m2, hc, _, hw, _, _, hef⟩ := hi.clear hA nd
      refine ⟨{ f with vec := v }, m', m2.setBlock f.buf none, ds ++ (if nd then ys else []),
        by rw [he]; rfl, hi.slice, ?_, ?_, ?_, ?_⟩
      · simp only [FVec.destroyM]
        rw [clear_agree hd nd hi' hcap', hc]
        rfl
      · intro b
        by_cases hpb : b = f.buf
        · subst hpb; simp
        · have := hw b hpb
          simpa [hpb, worldBut] using this
      · simp [hef.dropped, hds]
      · intro hnd
        subst hnd
        exact List.perm_append_comm.trans (by simpa using hp rfl)
  · intro hover hasks
    rw [runM_refuses B hT (A := fixedAllocatorM B size align R.total f.pool)
      (fun _ hn hb m => byteAllocator_refuses B hT R.total hn hb m) ha hd hA nd ops hops hi1.inv hcap
      hasks hover]
    rfl

/-- C161 for vector maps with increasing keys: in either build a history returns what it returns on the
entries as a finite map, or panics; a map that is left is dropped without a panic and gives back
exactly its block. Nothing is asked of the number of entries. -/
theorem C161_handed_vector_map (B : Build) {size align : Nat} (hT : TypeLayout size align)
    (R : RawAlloc (K × V)) (lt eq : K → K → Bool) (hw : StrictWeak lt) (hc : Consistent lt eq)
    (nd : Bool) {m : Mem (K × V)} {v : Vec} {bs : List Nat} {cap : Nat} {xs : List (K × V)}
    (h : HandedVec m v bs cap xs) (hcap : Representable size align cap) (hs : Increasing lt xs)
    (ops : List (MapOp K V)) :
    VMap.runM B (byteAllocator B size align R.total) lt eq nd ops v m = .error .panic ∨
    ∃ v' m' ys m'', VMap.runM B (byteAllocator B size align R.total) lt eq nd ops v m =
        .ok ((MapOp.run eq ops xs).1, v', m') ∧
      v'.asSlice m' = .ok ys ∧ ys.Perm (MapOp.run eq ops xs).2 ∧ Increasing lt ys ∧
      v'.clear (byteAllocator B size align R.total) nd m' = .ok (Vec.new, m'') ∧
      (∀ b, m''.live b = if b ∈ bs then none else m.live b) ∧
      m''.dropped = m'.dropped ++ if nd then ys else [] := by
  have h1 : WSorted lt xs := hs.imp fun {p q} hpq => by
    cases hqp : lt q.1 p.1 with
    | false => rfl
    | true => exact absurd (hw.trans _ _ _ hpq hqp) (by simp [hw.irrefl])
  have h2 : Distinct eq xs := hs.imp fun {p q} hpq => by
    cases hqp : eq p.1 q.1 with
    | false => rfl
    | true => exact absurd hpq (by simp [((hc p.1 q.1).1 hqp).1])
  obtain ⟨v', m', ys, m'', e1, e2, e3, e4, e5, e6⟩ :=
    C128_handed_vector_map R lt eq hw hc nd h hs ops
  rcases mapRunM_either B hT R hw hc nd ops h.inv h1 h2 hcap with g1 | ⟨g1, g2⟩
  · exact .inl g1
  · obtain ⟨xs', cap', hi', hcap'⟩ := g2 _ _ _ e1
    exact .inr ⟨v', m', ys, m'', g1.trans e1, e2, e3, e4,
      (clear_agree (P := Representable size align)
        (fun c hc p m => byteAllocator_dealloc B hT R.total R hc p m) nd hi' hcap').trans e5, e6⟩

/-- C161 for strings. If all capacities of a history can exist, together with the terminator, it does
exactly what the string of C128 does, and dropping the string gives back exactly its block. If one of
them cannot exist the history panics; in a release build, provided that each request is for fewer than
2^63 bytes. -/
theorem C161_handed_string (B : Build) (R : RawAlloc UInt8) {m : Mem UInt8} {v : Vec}
    {bs : List Nat} {cap : Nat} {text : List Char} (htext : ∀ c ∈ text, c.toNat < 128)
    (h : HandedStr m v bs cap (utf8 text)) (hcap : TextFits cap) (ops : List StrOp) :
    ((∀ op ∈ ops, op.Ascii ∧ op.isAssign = false) →
      (∀ c ∈ StrOp.caps ops text.length cap, TextFits c) →
      match StrOp.run ops text with
      | .error e => Str.runM B (strAllocM B R.total) ops v m = .error e
      | .ok (outs, cs) => ∃ v' m' m'', Str.runM B (strAllocM B R.total) ops v m = .ok (outs, v', m') ∧
          v'.asSlice m' = .ok (utf8 cs) ∧ Str.drop (strAllocM B R.total) v' m' = .ok m'' ∧
          ∀ b, m''.live b = if b ∈ bs then none else m.live b) ∧
    ((∃ c ∈ StrOp.caps ops text.length cap, ¬ TextFits c) →
      (B = .release → ∀ op ∈ ops, op.wanted < 2 ^ 63) →
      Str.runM B (strAllocM B R.total) ops v m = .error .panic) := by
  have hl : (utf8 text).length = text.length := by rw [utf8_ascii htext]; simp
  constructor
  · intro hops hfit
    rw [← hl] at hfit
    obtain ⟨heq, hend⟩ := strRunM_ends B R ops h.inv hcap hfit
    obtain ⟨_, _, _, hrun⟩ := C128_handed_string R htext h ops hops
    rw [heq]
    cases hs : StrOp.run ops text with
    | error e => rw [hs] at hrun; exact hrun
    | ok r =>
      obtain ⟨os, ys⟩ := r
      rw [hs] at hrun
      obtain ⟨v', m', m'', e1, e2, e3, e4⟩ := hrun
      obtain ⟨bs', cap', hi', hcap'⟩ := hend _ _ _ e1
      refine ⟨v', m', m'', e1, e2, ?_, e4⟩
      rw [← e3]
      simp only [Str.drop]
      rw [clear_agree (P := TextFits) (A' := strAlloc R)
        (fun c hc p m => strAllocM_dealloc B R.total R hc p m) false hi' hcap']
  · intro hover hasks
    rw [← hl] at hover
    exact strRunM_refuses B R ops h.inv hcap hasks hover

/-! ## Instances -/

/-- The vector of `C128_handed_vector`'s instance, used in a release build: its spare room is used
before it grows from 5 to 10. -/
example : (do
    let (os, v, m) ← Vec.runM .release (byteAllocator .release 8 8 RawAlloc.bump.total) true
      [.push 12, .push 13, .push 14, .push 15, .remove 0, .slice] ⟨.loc 7 0, .loc 7 2, .loc 7 5⟩
      handedVecMem
    let c ← v.capacity
    let (_, m) ← v.clear (byteAllocator .release 8 8 RawAlloc.bump.total) true m
    .ok (os.flatMap Out.movedOut, c, m.dropped, (m.live 7).isSome)) =
  (.ok ([10], 10, [11, 12, 13, 14, 15], false) : Exec (List Nat × Nat × List Nat × Bool)) := by
  decide +kernel

example : (∀ c ∈ SeqOp.caps [.push 12, .push 13, .push 14, .push 15, .remove 0, .slice] [10, 11] 5,
    Representable 8 8 c) ∧ Representable 8 8 5 := by
  unfold Representable
  constructor <;> decide +kernel

/-- The same vector asked for more than can exist. -/
example : ∃ c ∈ SeqOp.caps [.push 12, .reserve (2 ^ 60 - 5)] [10, 11] 5, ¬ Representable 8 8 c := by
  refine ⟨2 ^ 60, ?_, by simp [Representable]⟩
  decide +kernel

/-- The string "ab" in a release build: a request that cannot be met panics. -/
example : (Str.runM .release (strAllocM .release RawAlloc.bump.total) [.push 'c', .reserve (2 ^ 63 - 6)]
    ⟨.loc 7 0, .loc 7 2, .loc 7 4⟩ handedStrMem).map (fun _ => ()) = .error .panic ∧
    (∃ c ∈ StrOp.caps [.push 'c', .reserve (2 ^ 63 - 6)] 2 4, ¬ TextFits c) ∧ TextFits 4 := by
  refine ⟨by decide +kernel, ⟨2 ^ 63 - 1, ?_, by simp [TextFits]⟩, by simp [TextFits]⟩
  decide +kernel

/-- The map of `C128_handed_vector_map`'s instance in a release build. -/
example : (do
    let (os, v, m) ← VMap.runM .release (byteAllocator .release 16 8 RawAlloc.bump.total)
      (fun a b => decide (a < b)) (fun a b => a == b) true [.insert 4 40, .get 5, .remove 3]
      ⟨.loc 7 0, .loc 7 2, .loc 7 5⟩ handedMapMem
    let xs ← v.asSlice m
    .ok (os.length, xs)) = (.ok (3, [(4, 40), (5, 50)]) : Exec _) := by decide +kernel

end Verif
