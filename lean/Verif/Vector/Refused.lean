import Verif.FixedVector.Move
import Verif.Text.Proofs
import Verif.Spec.Refused

/-! Histories of calls on vectors, fixed vectors and strings in which the caller catches the panics
of calls with an index out of range (`catch_unwind`). -/

set_option autoImplicit false

namespace Verif
open Spec

variable {α : Type}

/-- A value dropped because a panic unwinds. -/
def Mem.unwound (nd : Bool) (x : α) (m : Mem α) : Mem α :=
  { m with dropped := m.dropped ++ if nd then [x] else [] }

/-- `Vector::insert` (src/vector/mod.rs:159-174): the assertion comes first, the element is dropped
by the unwinding. -/
def Vec.insertC (A : Allocator α) (nd : Bool) (index : Nat) (x : α) (v : Vec) (m : Mem α) :
    Exec (Bool × Vec × Mem α) := do
  let n ← v.len
  if index ≤ n then do
    let (v, m) ← v.insert A index x m
    .ok (true, v, m)
  else .ok (false, v, m.unwound nd x)

/-- `v[index] = x` (src/vector/mod.rs:351-355): `x` is evaluated before the index is checked. -/
def Vec.setAtC (nd : Bool) (index : Nat) (x : α) (v : Vec) (m : Mem α) :
    Exec (Bool × Mem α) := do
  let n ← (if v.beginPtr = .null then .ok 0 else v.len)
  if index < n then do
    let m ← v.setAt nd index x m
    .ok (true, m)
  else .ok (false, m.unwound nd x)

/-- One call on a vector; `none` is a caught panic.  Other calls do not panic. -/
def Vec.stepC (A : Allocator α) (nd : Bool) (op : SeqOp α) (v : Vec) (m : Mem α) :
    Exec (Option (Out α) × Vec × Mem α) :=
  match op with
  | .insert i x => do
    let (ok, v, m) ← v.insertC A nd i x m
    .ok (if ok then some .unit else none, v, m)
  | .set i x => do
    let (ok, m) ← v.setAtC nd i x m
    .ok (if ok then some .unit else none, v, m)
  | op => do
    let (o, v, m) ← v.step A nd op m
    .ok (some o, v, m)

/-- A history of calls on a vector. -/
def Vec.runC (A : Allocator α) (nd : Bool) : List (SeqOp α) → Vec → Mem α →
    Exec (List (Option (Out α)) × Vec × Mem α)
  | [], v, m => .ok ([], v, m)
  | op :: ops, v, m => do
    let (o, v, m) ← v.stepC A nd op m
    let (os, v, m) ← Vec.runC A nd ops v m
    .ok (o :: os, v, m)

/-- A history of calls on a fixed vector, which are calls on its vector
(src/fixed_vector/mod.rs:119-135). -/
def FVec.runC (R : RawAlloc α) (nd : Bool) (ops : List (SeqOp α)) (f : FVec) (m : Mem α) :
    Exec (List (Option (Out α)) × FVec × Mem α) := do
  let (os, v, m) ← f.vec.runC (fixedAllocator R f.pool) nd ops m
  .ok (os, { f with vec := v }, m)

/-- One call on a string (`insert`, src/string/mod.rs:142-147). -/
def Str.stepC (A : Allocator UInt8) (op : StrOp) (v : Vec) (m : Mem UInt8) :
    Exec (Option StrOut × Vec × Mem UInt8) :=
  match op with
  | .insert i c => do
    let (ok, v, m) ← v.insertC A false i (charToByte c) m
    if ok then do
      let m ← Str.nullTerminate v m
      .ok (some .unit, v, m)
    else .ok (none, v, m)
  | op => do
    let (o, v, m) ← Str.step A op v m
    .ok (some o, v, m)

/-- A history of calls on a string. -/
def Str.runC (A : Allocator UInt8) : List StrOp → Vec → Mem UInt8 →
    Exec (List (Option StrOut) × Vec × Mem UInt8)
  | [], v, m => .ok ([], v, m)
  | op :: ops, v, m => do
    let (o, v, m) ← Str.stepC A op v m
    let (os, v, m) ← Str.runC A ops v m
    .ok (o :: os, v, m)

section
variable {fits : Nat → Nat → Region → Nat → Prop} {keeps : Nat → Prop}
  {init : Block α → Nat → Prop} {A : Allocator α}
  {w : World α} {m : Mem α} {v : Vec} {xs : List α} {cap : Nat}

theorem VInv.unwound (h : VInv keeps fits w m v xs cap) (nd : Bool) (x : α) :
    VInv keeps fits w (m.unwound nd x) v xs cap := by
  obtain ⟨h1, w', h2, h3⟩ := h
  refine ⟨h1, w', h2, ?_⟩
  rcases h3 with h3 | ⟨b, blk, h3⟩
  · exact .inl ⟨h3.live, h3.ptrs, h3.nil, h3.cap0⟩
  · exact .inr ⟨b, blk, h3.fresh, h3.live, h3.fit, h3.cap_le, h3.len_le, h3.cells, h3.ptrs⟩

theorem VInv.setLen (h : VInv keeps fits w m v xs cap) :
    (if v.beginPtr = .null then .ok 0 else v.len) = (.ok xs.length : Exec Nat) := by
  split
  · rename_i hb
    obtain ⟨_, w', _, h3⟩ := h
    rcases h3 with h3 | ⟨b, blk, h3⟩
    · rw [h3.nil]; rfl
    · rw [h3.ptrs] at hb; cases hb
  · exact h.len

/-- A refused call changes nothing and drops its argument. -/
theorem VInv.stepC_refused (nd : Bool) {op : SeqOp α} (h : VInv keeps fits w m v xs cap)
    {e : Fault} (hs : op.step xs = .error e) :
    ∃ x, op.movedIn = [x] ∧ v.stepC A nd op m = .ok (none, v, m.unwound nd x) := by
  cases op with
  | insert i x =>
    have hi : ¬ i ≤ xs.length := by
      intro hi; simp [SeqOp.step, hi] at hs
    exact ⟨x, rfl, by simp [Vec.stepC, Vec.insertC, h.len, hi]⟩
  | set i x =>
    have hi : ¬ i < xs.length := by
      intro hi; simp [SeqOp.step, hi] at hs
    exact ⟨x, rfl, by simp [Vec.stepC, Vec.setAtC, h.setLen, hi]⟩
  | _ => simp [SeqOp.step] at hs

theorem VInv.stepC_accepted {nd : Bool} {op : SeqOp α} (h : VInv keeps fits w m v xs cap)
    {o o' : Out α} {ys : List α} {v' : Vec} {m' : Mem α} (hs : op.step xs = .ok (o', ys))
    (hr : v.step A nd op m = .ok (o, v', m')) : v.stepC A nd op m = .ok (some o, v', m') := by
  cases op with
  | insert i x =>
    have hi : i ≤ xs.length := by
      by_contra hi; simp [SeqOp.step, hi] at hs
    obtain ⟨⟨v1, m1⟩, h1, h2⟩ := Exec.bind_ok hr
    simp only [Except.ok.injEq, Prod.mk.injEq] at h2
    obtain ⟨rfl, rfl, rfl⟩ := h2
    simp [Vec.stepC, Vec.insertC, h.len, hi, h1]
  | set i x =>
    have hi : i < xs.length := by
      by_contra hi; simp [SeqOp.step, hi] at hs
    obtain ⟨m1, h1, h2⟩ := Exec.bind_ok hr
    simp only [Except.ok.injEq, Prod.mk.injEq] at h2
    obtain ⟨rfl, rfl, rfl⟩ := h2
    simp [Vec.stepC, Vec.setAtC, h.setLen, hi, h1]
  | _ => simp only [Vec.stepC, hr, Exec.ok_bind]

theorem VInv.runC (hA : Lawful A fits keeps init) (nd : Bool) : ∀ (ops : List (SeqOp α))
    {m : Mem α} {v : Vec} {xs : List α} {cap : Nat},
    (nd = true → ∀ op ∈ ops, op.isSlice = false) → VInv keeps fits w m v xs cap →
    ∃ v' m' ds cap', v.runC A nd ops m = .ok ((SeqOp.runC ops xs).1, v', m') ∧
      VInv keeps fits w m' v' (SeqOp.runC ops xs).2 cap' ∧ m'.dropped = m.dropped ++ ds ∧
      (nd = true → (ops.flatMap SeqOp.movedIn ++ xs).Perm
        (((SeqOp.runC ops xs).1.filterMap id).flatMap Out.movedOut ++ ds ++
          (SeqOp.runC ops xs).2))
  | [], m, v, xs, cap, _, h => ⟨v, m, [], cap, rfl, h, by simp, by simp [SeqOp.runC]⟩
  | op :: ops, m, v, xs, cap, hops, h => by
    have h1 := h.step hA nd op (fun hn => hops hn op (by simp))
    have hops' : nd = true → ∀ op ∈ ops, op.isSlice = false :=
      fun hn op' hop' => hops hn op' (by simp [hop'])
    cases hs : op.step xs with
    | error e =>
      obtain ⟨x, hx, he⟩ := h.stepC_refused (A := A) nd hs
      obtain ⟨v2, m2, d2, cap2, he2, hi2, hd2, hac2⟩ := VInv.runC hA nd ops hops' (h.unwound nd x)
      have e1 : op.stepC xs = (none, xs) := by simp [SeqOp.stepC, hs]
      simp only [SeqOp.runC, e1]
      refine ⟨v2, m2, (if nd then [x] else []) ++ d2, cap2, by simp [Vec.runC, he, he2], hi2, ?_, ?_⟩
      · rw [hd2]
        show (m.dropped ++ _) ++ d2 = _
        rw [List.append_assoc]
      · intro hn
        have := accounts_trans (op := op) (o := .unit) (d1 := [x]) (xs := xs) (ys := xs)
          (by simp [Accounts, hx, Out.movedOut]) (hac2 hn)
        simpa [hn, Out.movedOut] using this
    | ok r =>
      obtain ⟨o, ys⟩ := r
      rw [hs] at h1
      obtain ⟨v1, m1, d1, a1, c1, he1, hi1, hef1, hac1⟩ := h1
      have he := h.stepC_accepted hs he1
      obtain ⟨v2, m2, d2, cap2, he2, hi2, hd2, hac2⟩ := VInv.runC hA nd ops hops' hi1
      have e1 : op.stepC xs = (some o, ys) := by simp [SeqOp.stepC, hs]
      simp only [SeqOp.runC, e1]
      refine ⟨v2, m2, d1 ++ d2, cap2, by simp [Vec.runC, he, he2], hi2, ?_, ?_⟩
      · rw [hd2, hef1.dropped, List.append_assoc]
      · intro hn
        simpa using accounts_trans (hac1 hn) (hac2 hn)

end

theorem Str.stepC_accepted {A : Allocator UInt8} {w : World UInt8} {op : StrOp} {m m' : Mem UInt8}
    {v v' : Vec} {bs bs' : List UInt8} {cap : Nat} {o o' : StrOut} (h : SInv w m v bs cap)
    (hs : byteStep op bs = .ok (o', bs')) (hr : Str.step A op v m = .ok (o, v', m')) :
    Str.stepC A op v m = .ok (some o, v', m') := by
  cases op with
  | insert i c =>
    have hi : i ≤ bs.length := by
      by_contra hi; simp [byteStep, hi] at hs
    obtain ⟨⟨v1, m1⟩, h1, h2⟩ := Exec.bind_ok hr
    simp only [Except.ok.injEq, Prod.mk.injEq] at h2
    obtain ⟨rfl, rfl, rfl⟩ := h2
    obtain ⟨⟨v2, m2⟩, h3, h4⟩ := Exec.bind_ok h1
    obtain ⟨m3, h5, h6⟩ := Exec.bind_ok h4
    simp only [Except.ok.injEq, Prod.mk.injEq] at h6
    obtain ⟨rfl, rfl⟩ := h6
    simp [Str.stepC, Vec.insertC, h.len, hi, h3, h5]
  | _ => simp only [Str.stepC, hr, Exec.ok_bind]

theorem SInv.runC {R : RawAlloc UInt8} {w : World UInt8} : ∀ (ops : List StrOp)
    {m : Mem UInt8} {v : Vec} {cs : List Char} {cap : Nat},
    (∀ op ∈ ops, op.Ascii ∧ op.isAssign = false) → (∀ c ∈ cs, IsAscii c) →
    SInv w m v (cs.map charToByte) cap →
    ∃ v' m' cap', Str.runC (nullTermAllocator (defaultAllocator R)) ops v m =
        .ok ((StrOp.runC ops cs).1, v', m') ∧
      SInv w m' v' ((StrOp.runC ops cs).2.map charToByte) cap' ∧
      ∀ c ∈ (StrOp.runC ops cs).2, IsAscii c
  | [], m, v, cs, cap, _, hc, h => ⟨v, m, cap, rfl, h, hc⟩
  | op :: ops, m, v, cs, cap, hops, hc, h => by
    obtain ⟨ha, hb⟩ := hops op (by simp)
    have hb1 := byteStep_ascii ha hb hc
    have h1 := h.step (R := R) op
    have hops' : ∀ op ∈ ops, op.Ascii ∧ op.isAssign = false :=
      fun op' hop' => hops op' (by simp [hop'])
    cases hs : op.step cs with
    | error e =>
      have he : Str.stepC (nullTermAllocator (defaultAllocator R)) op v m = .ok (none, v, m) := by
        cases op with
        | insert i c =>
          have hi : ¬ i ≤ cs.length := by
            intro hi; simp [StrOp.step, hi] at hs
          simp [Str.stepC, Vec.insertC, h.len, hi, Mem.unwound]
        | _ => simp [StrOp.step] at hs
      obtain ⟨v2, m2, cap2, he2, hi2, hc2⟩ := SInv.runC (R := R) ops hops' hc h
      have e1 : op.stepC cs = (none, cs) := by simp [StrOp.stepC, hs]
      simp only [StrOp.runC, e1]
      exact ⟨v2, m2, cap2, by simp [Str.runC, he, he2], hi2, hc2⟩
    | ok r =>
      obtain ⟨o, cs'⟩ := r
      rw [hs] at hb1
      obtain ⟨hb1, hc'⟩ := hb1
      rw [hb1] at h1
      obtain ⟨v1, m1, cap1, he1, hi1, _⟩ := h1
      have he := Str.stepC_accepted h hb1 he1
      obtain ⟨v2, m2, cap2, he2, hi2, hc2⟩ := SInv.runC (R := R) ops hops' hc' hi1
      have e1 : op.stepC cs = (some o, cs') := by simp [StrOp.stepC, hs]
      simp only [StrOp.runC, e1]
      exact ⟨v2, m2, cap2, by simp [Str.runC, he, he2], hi2, hc2⟩

end Verif
