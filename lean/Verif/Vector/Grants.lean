import Verif.Vector.Refused
import Verif.Spec.Refusals

/-! Vectors with an allocator that panics: each call comes with whether its request for memory, if it
makes one, is granted.  The functions that allocate are modelled again; `false` in a result says that
the call panicked. -/

set_option autoImplicit false

namespace Verif
open Spec

variable {α : Type}

namespace Vec

/-- `Vector::reserve` (src/vector/mod.rs:203-224): the allocator is called before anything changes. -/
def reserveG (A : Allocator α) (g : Bool) (additional : Nat) (v : Vec) (m : Mem α) :
    Exec (Bool × Vec × Mem α) :=
  if additional = 0 then .ok (true, v, m) else do
    let size ← v.len
    let cap ← v.capacity
    let newCap := cap + additional
    if g = false then .ok (false, v, m)
    else do
      let (nb, m) ← A.alloc newCap m
      let m ← (if v.beginPtr = .null then .ok m else do
        let m ← m.copy v.beginPtr nb size
        let c ← v.capacity
        A.dealloc v.beginPtr c m)
      let e ← m.ptrAdd nb size
      let c ← m.ptrAdd nb newCap
      .ok (true, ⟨nb, e, c⟩, m)

/-- `Vector::grow` (src/vector/mod.rs:250-254). -/
def growG (A : Allocator α) (g : Bool) (v : Vec) (m : Mem α) : Exec (Bool × Vec × Mem α) := do
  let c ← v.capacity
  let newCap := calculateGrowCapacity c
  let c' ← v.capacity
  v.reserveG A g (newCap - c') m

/-- `Vector::push` (src/vector/mod.rs:126-136): a panic of `grow` drops the element. -/
def pushG (A : Allocator α) (nd g : Bool) (x : α) (v : Vec) (m : Mem α) :
    Exec (Bool × Vec × Mem α) := do
  let full ← v.isFull
  let (ok, v, m) ← (if full then v.growG A g m else .ok (true, v, m))
  if ok then do
    let m ← m.write v.endPtr x
    let v ← v.incrementSize m
    .ok (true, v, m)
  else .ok (false, v, m.unwound nd x)

/-- `Vector::insert` (src/vector/mod.rs:159-174). -/
def insertG (A : Allocator α) (nd g : Bool) (index : Nat) (x : α) (v : Vec) (m : Mem α) :
    Exec (Bool × Vec × Mem α) := do
  let n ← v.len
  if index ≤ n then do
    let full ← v.isFull
    let (ok, v, m) ← (if full then v.growG A g m else .ok (true, v, m))
    if ok then do
      let src ← m.ptrAdd v.beginPtr index
      let dst ← m.ptrAdd v.beginPtr (index + 1)
      let n ← v.len
      let m ← m.copy src dst (n - index)
      let p ← m.ptrAdd v.beginPtr index
      let m ← m.write p x
      let v ← v.incrementSize m
      .ok (true, v, m)
    else .ok (false, v, m.unwound nd x)
  else .ok (false, v, m.unwound nd x)

/-- `Vector::append` (src/vector/mod.rs:280-292). -/
def appendG (A : Allocator α) (nd g : Bool) (buf : List α) (v : Vec) (m : Mem α) :
    Exec (Bool × Vec × Mem α) := do
  let oldLen ← v.len
  let newLen := oldLen + buf.length
  let cap ← v.capacity
  let (ok, v, m) ← (if cap < newLen then v.reserveG A g (newLen - cap) m else .ok (true, v, m))
  if ok then do
    let e ← m.ptrAdd v.endPtr buf.length
    let v : Vec := { v with endPtr := e }
    if v.beginPtr = .null then .ok (true, v, m) else do
      let p ← m.ptrAdd v.beginPtr oldLen
      let m ← m.cloneFrom nd p buf
      .ok (true, v, m)
  else .ok (false, v, m)

/-- `Vector::assign` (src/vector/mod.rs:299-308). -/
def assignG (A : Allocator α) (nd g : Bool) (buf : List α) (v : Vec) (m : Mem α) :
    Exec (Bool × Vec × Mem α) := do
  let cap ← v.capacity
  let (ok, v, m) ← (if cap < buf.length then v.reserveG A g (buf.length - cap) m
    else .ok (true, v, m))
  if ok then do
    let e ← m.ptrAdd v.beginPtr buf.length
    let v : Vec := { v with endPtr := e }
    if v.beginPtr = .null then .ok (true, v, m) else do
      let m ← m.cloneFrom nd v.beginPtr buf
      .ok (true, v, m)
  else .ok (false, v, m)

/-- One public call: what it returned, or `none` if it panicked. -/
def stepG (A : Allocator α) (nd g : Bool) (op : SeqOp α) (v : Vec) (m : Mem α) :
    Exec (Option (Out α) × Vec × Mem α) :=
  match op with
  | .push x => do
    let (ok, v, m) ← v.pushG A nd g x m
    .ok (if ok then some .unit else none, v, m)
  | .insert i x => do
    let (ok, v, m) ← v.insertG A nd g i x m
    .ok (if ok then some .unit else none, v, m)
  | .reserve n => do
    let (ok, v, m) ← v.reserveG A g n m
    .ok (if ok then some .unit else none, v, m)
  | .append buf => do
    let (ok, v, m) ← v.appendG A nd g buf m
    .ok (if ok then some .unit else none, v, m)
  | .assign buf => do
    let (ok, v, m) ← v.assignG A nd g buf m
    .ok (if ok then some .unit else none, v, m)
  | op => v.stepC A nd op m

/-- A history of public calls, each panic being caught. -/
def runG (A : Allocator α) (nd : Bool) : List (Bool × SeqOp α) → Vec → Mem α →
    Exec (List (Option (Out α)) × Vec × Mem α)
  | [], v, m => .ok ([], v, m)
  | (g, op) :: calls, v, m => do
    let (o, v, m) ← v.stepG A nd g op m
    let (os, v, m) ← runG A nd calls v m
    .ok (o :: os, v, m)

end Vec

/-- A history of calls on a fixed vector, which are calls on its vector
(src/fixed_vector/mod.rs:119-135); the requests go to the overflow allocator. -/
def FVec.runG (R : RawAlloc α) (nd : Bool) (calls : List (Bool × SeqOp α)) (f : FVec) (m : Mem α) :
    Exec (List (Option (Out α)) × FVec × Mem α) := do
  let (os, v, m) ← f.vec.runG (fixedAllocator R f.pool) nd calls m
  .ok (os, { f with vec := v }, m)

section
variable {fits : Nat → Nat → Region → Nat → Prop} {keeps : Nat → Prop}
  {init : Block α → Nat → Prop} {A : Allocator α}
  {w : World α} {m : Mem α} {v : Vec} {xs : List α} {cap : Nat}

theorem VInv.reserveG (h : VInv keeps fits w m v xs cap) (g : Bool) (n : Nat) :
    v.reserveG A g n m = (if g = false ∧ n ≠ 0 then .ok (false, v, m)
      else do let (v, m) ← v.reserve A n m; .ok (true, v, m)) := by
  unfold Vec.reserveG Vec.reserve
  by_cases hn : n = 0
  · simp [hn]
  · cases g
    · simp [hn, h.len, h.capacity]
    · simp [hn, h.len, h.capacity]

theorem VInv.growG (h : VInv keeps fits w m v xs cap) (g : Bool) :
    v.growG A g m = (if g = false then .ok (false, v, m)
      else do let (v, m) ← v.grow A m; .ok (true, v, m)) := by
  have hne : Vec.calculateGrowCapacity cap - cap ≠ 0 := by
    unfold Vec.calculateGrowCapacity
    split_ifs <;> omega
  unfold Vec.growG Vec.grow
  simp only [h.capacity, Exec.ok_bind, h.reserveG, hne, ne_eq, not_false_eq_true, and_true]

theorem VInv.insertG (h : VInv keeps fits w m v xs cap) (nd g : Bool) (i : Nat) (x : α) :
    v.insertG A nd g i x m =
      if i ≤ xs.length ∧ ¬ (g = false ∧ xs.length = cap) then (do
        let (v, m) ← v.insert A i x m
        .ok (true, v, m))
      else .ok (false, v, m.unwound nd x) := by
  by_cases hi : i ≤ xs.length
  · by_cases hf : xs.length = cap
    · have hi' : i ≤ cap := hf ▸ hi
      cases g
      · simp [Vec.insertG, h.len, h.isFull, hf, h.growG]
      · simp [Vec.insertG, h.len, hi', h.isFull, hf, h.growG, Vec.insert, bind_assoc]
    · simp [Vec.insertG, h.len, hi, h.isFull, hf, Vec.insert, bind_assoc]
  · simp [Vec.insertG, h.len, hi]

/-- A call as with a working allocator, if it asks for no memory or is granted it; otherwise it
changes nothing and drops what was passed to it. -/
theorem VInv.stepG (h : VInv keeps fits w m v xs cap) (nd g : Bool) (op : SeqOp α) :
    v.stepG A nd g op m = v.stepC A nd op m ∨
    (g = false ∧ cap < op.capAfter xs.length cap ∧
      v.stepG A nd g op m = .ok (none, v, op.movedIn.foldl (fun m x => m.unwound nd x) m)) := by
  have hle := h.len_le
  have hcapE : xs.length = cap →
      cap < (if xs.length < cap then cap else if cap = 0 then 1 else 2 * cap) := by
    intro hc
    split_ifs <;> omega
  cases op with
  | push x =>
    by_cases hf : xs.length = cap
    · cases g
      · right
        refine ⟨rfl, hcapE hf, ?_⟩
        simp [Vec.stepG, Vec.pushG, h.isFull, hf, h.growG, SeqOp.movedIn]
      · left
        simp [Vec.stepG, Vec.pushG, h.isFull, hf, h.growG, Vec.stepC, Vec.step, Vec.push, bind_assoc]
    · left
      simp [Vec.stepG, Vec.pushG, h.isFull, hf, Vec.stepC, Vec.step, Vec.push, bind_assoc]
  | insert i x =>
    by_cases hi : i ≤ xs.length
    · by_cases hf : xs.length = cap
      · have hi' : i ≤ cap := hf ▸ hi
        cases g
        · right
          refine ⟨rfl, hcapE hf, ?_⟩
          simp [Vec.stepG, Vec.insertG, h.len, h.isFull, hf, h.growG, SeqOp.movedIn]
        · left
          simp [Vec.stepG, Vec.insertG, h.len, hi', h.isFull, hf, h.growG, Vec.stepC, Vec.insertC,
            Vec.insert, bind_assoc]
      · left
        simp [Vec.stepG, Vec.insertG, h.len, hi, h.isFull, hf, Vec.stepC, Vec.insertC,
          Vec.insert, bind_assoc]
    · left
      simp [Vec.stepG, Vec.insertG, h.len, hi, Vec.stepC, Vec.insertC]
  | reserve n =>
    by_cases hn : g = false ∧ n ≠ 0
    · right
      refine ⟨hn.1, by simp only [SeqOp.capAfter]; omega, ?_⟩
      simp only [Vec.stepG, h.reserveG, if_pos hn, Exec.ok_bind, SeqOp.movedIn, List.foldl_nil,
        Bool.false_eq_true, if_false]
    · left
      simp only [Vec.stepG, h.reserveG, if_neg hn, Vec.stepC, Vec.step, bind_assoc, Exec.ok_bind,
        if_true]
  | append buf =>
    by_cases hf : cap < xs.length + buf.length
    · have hne : xs.length + buf.length - cap ≠ 0 := by omega
      cases g
      · right
        refine ⟨rfl, by simp only [SeqOp.capAfter]; omega, ?_⟩
        simp only [Vec.stepG, Vec.appendG, h.len, h.capacity, Exec.ok_bind, if_pos hf, h.reserveG,
          ne_eq, hne, not_false_eq_true, and_self, if_true, SeqOp.movedIn, List.foldl_nil,
          Bool.false_eq_true, if_false]
      · left
        simp [Vec.stepG, Vec.appendG, h.len, h.capacity, hf, h.reserveG, Vec.stepC, Vec.step,
          Vec.append, bind_assoc]
        congr; funext x; congr; funext e; split_ifs <;> simp [bind_assoc]
    · left
      simp [Vec.stepG, Vec.appendG, h.len, h.capacity, hf, Vec.stepC, Vec.step, Vec.append,
        bind_assoc]
      congr; funext e; split_ifs <;> simp [bind_assoc]
  | assign buf =>
    by_cases hf : cap < buf.length
    · have hne : buf.length - cap ≠ 0 := by omega
      cases g
      · right
        refine ⟨rfl, by simp only [SeqOp.capAfter]; omega, ?_⟩
        simp only [Vec.stepG, Vec.assignG, h.capacity, Exec.ok_bind, if_pos hf, h.reserveG,
          ne_eq, hne, not_false_eq_true, and_self, if_true, SeqOp.movedIn, List.foldl_nil,
          Bool.false_eq_true, if_false]
      · left
        simp [Vec.stepG, Vec.assignG, h.capacity, hf, h.reserveG, Vec.stepC, Vec.step,
          Vec.assign, bind_assoc]
        congr; funext x; congr; funext e; split_ifs <;> simp [bind_assoc]
    · left
      simp [Vec.stepG, Vec.assignG, h.capacity, hf, Vec.stepC, Vec.step, Vec.assign, bind_assoc]
      congr; funext e; split_ifs <;> simp [bind_assoc]
  | _ => exact .inl rfl

/-- A call that would enlarge the capacity and is refused memory panics. -/
theorem VInv.stepG_needs (h : VInv keeps fits w m v xs cap) (nd : Bool) {op : SeqOp α}
    (hlt : cap < op.capAfter xs.length cap) :
    ((v.stepG A nd false op m).toOption.bind fun r => r.1).isNone = true := by
  have hle := h.len_le
  cases op with
  | push x =>
    have hf : xs.length = cap := by
      by_contra hne
      simp only [SeqOp.capAfter, if_pos (show xs.length < cap by omega)] at hlt
      omega
    simp [Vec.stepG, Vec.pushG, h.isFull, hf, h.growG, Except.toOption]
  | insert i x =>
    have hf : xs.length = cap := by
      by_contra hne
      simp only [SeqOp.capAfter, if_pos (show xs.length < cap by omega)] at hlt
      omega
    by_cases hi : i ≤ cap
    · simp [Vec.stepG, Vec.insertG, h.len, h.isFull, hf, h.growG, Except.toOption]
    · simp [Vec.stepG, Vec.insertG, h.len, hi, hf, Except.toOption]
  | reserve n =>
    have hn : n ≠ 0 := by simp only [SeqOp.capAfter] at hlt; omega
    simp [Vec.stepG, h.reserveG, hn, Except.toOption]
  | append buf =>
    have hf : cap < xs.length + buf.length := by simp only [SeqOp.capAfter] at hlt; omega
    have hne : xs.length + buf.length - cap ≠ 0 := by omega
    simp only [Vec.stepG, Vec.appendG, h.len, h.capacity, Exec.ok_bind, if_pos hf, h.reserveG,
      ne_eq, hne, not_false_eq_true, and_self, if_true, Bool.false_eq_true, if_false,
      Except.toOption, Option.bind_some, Option.isNone_none]
  | assign buf =>
    have hf : cap < buf.length := by simp only [SeqOp.capAfter] at hlt; omega
    have hne : buf.length - cap ≠ 0 := by omega
    simp only [Vec.stepG, Vec.assignG, h.capacity, Exec.ok_bind, if_pos hf, h.reserveG,
      ne_eq, hne, not_false_eq_true, and_self, if_true, Bool.false_eq_true, if_false,
      Except.toOption, Option.bind_some, Option.isNone_none]
  | clear => simp [SeqOp.capAfter] at hlt
  | _ => simp [SeqOp.capAfter] at hlt

theorem VInv.unwoundAll (nd : Bool) : ∀ (l : List α) {m : Mem α},
    VInv keeps fits w m v xs cap →
    VInv keeps fits w (l.foldl (fun m x => m.unwound nd x) m) v xs cap ∧
      (l.foldl (fun m x => m.unwound nd x) m).dropped = m.dropped ++ if nd then l else []
  | [], m, h => ⟨h, by simp⟩
  | x :: l, m, h => by
    obtain ⟨h1, h2⟩ := VInv.unwoundAll nd l (h.unwound nd x)
    refine ⟨h1, ?_⟩
    rw [List.foldl_cons, h2]
    cases nd <;> simp [Mem.unwound]

/-- A history: the calls that returned behaved as if the others had not been made. -/
theorem VInv.runG (hA : Lawful A fits keeps init) (nd : Bool) : ∀ (calls : List (Bool × SeqOp α))
    {m : Mem α} {v : Vec} {xs : List α} {cap : Nat},
    (nd = true → ∀ c ∈ calls, c.2.isSlice = false) → VInv keeps fits w m v xs cap →
    ∃ outs v' m' ds cap' ys, v.runG A nd calls m = .ok (outs, v', m') ∧
      outs.length = calls.length ∧
      (∀ p ∈ calls.zip outs, p.2 = none → p.1.1 = false ∨
        ∃ i x, p.1.2 = .insert i x ∨ p.1.2 = .set i x) ∧
      SeqOp.run (answered (calls.map Prod.snd) outs) xs = .ok (outs.filterMap id, ys) ∧
      VInv keeps fits w m' v' ys cap' ∧ m'.dropped = m.dropped ++ ds ∧
      (nd = true → ((calls.map Prod.snd).flatMap SeqOp.movedIn ++ xs).Perm
        ((outs.filterMap id).flatMap Out.movedOut ++ ds ++ ys))
  | [], m, v, xs, cap, _, h => ⟨[], v, m, [], cap, xs, rfl, rfl, by simp,
      by simp [answered, SeqOp.run], h, by simp, by simp⟩
  | (g, op) :: calls, m, v, xs, cap, hops, h => by
    have hops' : nd = true → ∀ c ∈ calls, c.2.isSlice = false :=
      fun hn c hc => hops hn c (by simp [hc])
    have hcases : (∃ m1 : Mem α, v.stepG A nd g op m = .ok (none, v, m1) ∧
        VInv keeps fits w m1 v xs cap ∧
        m1.dropped = m.dropped ++ (if nd then op.movedIn else []) ∧
        (g = false ∨ ∃ i x, op = .insert i x ∨ op = .set i x)) ∨
        ∃ o ys v1 m1 d1 c1, op.step xs = .ok (o, ys) ∧ v.stepG A nd g op m = .ok (some o, v1, m1) ∧
          VInv keeps fits w m1 v1 ys c1 ∧ m1.dropped = m.dropped ++ d1 ∧
          (nd = true → Accounts op o d1 xs ys) := by
      rcases h.stepG (A := A) nd g op with hc | ⟨hg, _, hc⟩
      · have h1 := h.step hA nd op (fun hn => hops hn (g, op) (by simp))
        cases hs : op.step xs with
        | error e =>
          obtain ⟨x, hx, he⟩ := h.stepC_refused (A := A) nd hs
          refine .inl ⟨m.unwound nd x, hc.trans he, h.unwound nd x, by rw [hx]; rfl, .inr ?_⟩
          cases op with
          | insert i x => exact ⟨i, x, .inl rfl⟩
          | set i x => exact ⟨i, x, .inr rfl⟩
          | _ => simp [SeqOp.step] at hs
        | ok r =>
          obtain ⟨o, ys⟩ := r
          rw [hs] at h1
          obtain ⟨v1, m1, d1, a1, c1, he1, hi1, hef1, hac1⟩ := h1
          exact .inr ⟨o, ys, v1, m1, d1, _, rfl, hc.trans (h.stepC_accepted hs he1), hi1,
            hef1.dropped, hac1⟩
      · obtain ⟨u1, u2⟩ := VInv.unwoundAll nd op.movedIn h
        exact .inl ⟨_, hc, u1, u2, .inl hg⟩
    rcases hcases with ⟨m1, he, hi1, hd1, hwhy⟩ | ⟨o, ys, v1, m1, d1, c1, hs, he, hi1, hd1, hac1⟩
    · obtain ⟨outs, v2, m2, d2, cap2, ys, e1, e2, e3, e4, e5, e6, e7⟩ :=
        VInv.runG hA nd calls hops' hi1
      refine ⟨none :: outs, v2, m2, (if nd then op.movedIn else []) ++ d2, cap2, ys, ?_, by simp [e2],
        ?_, by simpa [answered] using e4, e5, ?_, ?_⟩
      · simp only [Vec.runG, he, e1, Exec.ok_bind]
      · intro p hp hn
        rw [List.zip_cons_cons, List.mem_cons] at hp
        rcases hp with rfl | hp
        · exact hwhy
        · exact e3 p hp hn
      · rw [e6, hd1, List.append_assoc]
      · intro hn
        have := accounts_trans (op := op) (o := .unit) (d1 := op.movedIn) (xs := xs) (ys := xs)
          (by simp [Accounts, Out.movedOut]) (e7 hn)
        simpa [hn, Out.movedOut] using this
    · obtain ⟨outs, v2, m2, d2, cap2, zs, e1, e2, e3, e4, e5, e6, e7⟩ :=
        VInv.runG hA nd calls hops' hi1
      refine ⟨some o :: outs, v2, m2, d1 ++ d2, cap2, zs, by simp [Vec.runG, he, e1], by simp [e2],
        ?_, ?_, e5, ?_, ?_⟩
      · intro p hp hn
        rw [List.zip_cons_cons, List.mem_cons] at hp
        rcases hp with rfl | hp
        · cases hn
        · exact e3 p hp hn
      · simp only [List.map_cons, answered, SeqOp.run, hs, e4, List.filterMap_cons_some (f := id) rfl]
      · rw [e6, hd1, List.append_assoc]
      · intro hn
        simpa using accounts_trans (hac1 hn) (e7 hn)

end

end Verif
