import Verif.Vector.Grants
import Verif.Text.Proofs

/-! Strings with an allocator that panics: each call comes with whether its requests for memory, if it
makes any, are granted.  `false` in a result says that the call panicked. -/

set_option autoImplicit false

namespace Verif
open Spec

namespace Str

/-- `String::insert` (src/string/mod.rs:142-147). -/
def insertG (A : Allocator UInt8) (g : Bool) (index : Nat) (c : Char) (v : Vec) (m : Mem UInt8) :
    Exec (Bool × Vec × Mem UInt8) := do
  let (ok, v, m) ← v.insertG A false g index (charToByte c) m
  if ok then do
    let m ← nullTerminate v m
    .ok (true, v, m)
  else .ok (false, v, m)

/-- `String::push` (src/string/mod.rs:120-122). -/
def pushG (A : Allocator UInt8) (g : Bool) (c : Char) (v : Vec) (m : Mem UInt8) :
    Exec (Bool × Vec × Mem UInt8) := do
  let n ← v.len
  insertG A g n c v m

/-- `String::reserve` (src/string/mod.rs:168-171). -/
def reserveG (A : Allocator UInt8) (g : Bool) (capacity : Nat) (v : Vec) (m : Mem UInt8) :
    Exec (Bool × Vec × Mem UInt8) := v.reserveG A g (capacity + 1) m

/-- `String::assign` (src/string/mod.rs:75-83). -/
def assignG (A : Allocator UInt8) (g : Bool) (buf : List UInt8) (v : Vec) (m : Mem UInt8) :
    Exec (Bool × Vec × Mem UInt8) := do
  let (ok, v, m) ← reserveG A g buf.length v m
  if ok then do
    let (ok, v, m) ← v.appendG A false g buf m
    if ok then do
      let m ← nullTerminate v m
      .ok (true, v, m)
    else .ok (false, v, m)
  else .ok (false, v, m)

/-- One public call: what it returned, or `none` if it panicked. -/
def stepG (A : Allocator UInt8) (g : Bool) (op : StrOp) (v : Vec) (m : Mem UInt8) :
    Exec (Option StrOut × Vec × Mem UInt8) :=
  match op with
  | .push c => do
    let (ok, v, m) ← pushG A g c v m
    .ok (if ok then some .unit else none, v, m)
  | .insert i c => do
    let (ok, v, m) ← insertG A g i c v m
    .ok (if ok then some .unit else none, v, m)
  | .reserve n => do
    let (ok, v, m) ← reserveG A g n v m
    .ok (if ok then some .unit else none, v, m)
  | .assign s => do
    let (ok, v, m) ← assignG A g (utf8 s) v m
    .ok (if ok then some .unit else none, v, m)
  | op => do
    let (o, v, m) ← step A op v m
    .ok (some o, v, m)

/-- A history of public calls, each panic being caught. -/
def runG (A : Allocator UInt8) : List (Bool × StrOp) → Vec → Mem UInt8 →
    Exec (List (Option StrOut) × Vec × Mem UInt8)
  | [], v, m => .ok ([], v, m)
  | (g, op) :: calls, v, m => do
    let (o, v, m) ← stepG A g op v m
    let (os, v, m) ← runG A calls v m
    .ok (o :: os, v, m)

end Str

section
variable {α : Type} {fits : Nat → Nat → Region → Nat → Prop} {keeps : Nat → Prop}
  {A : Allocator α} {w : World α} {m : Mem α} {v : Vec} {xs : List α} {cap : Nat}

theorem VInv.appendG_granted (h : VInv keeps fits w m v xs cap) (nd : Bool) (buf : List α) :
    v.appendG A nd true buf m = (do
      let (v, m) ← v.append A nd buf m
      .ok (true, v, m)) := by
  by_cases hf : cap < xs.length + buf.length
  · simp [Vec.appendG, h.len, h.capacity, hf, h.reserveG, Vec.append, bind_assoc]
    congr; funext x; congr; funext e; split_ifs <;> simp [bind_assoc]
  · simp [Vec.appendG, h.len, h.capacity, hf, Vec.append, bind_assoc]
    congr; funext e; split_ifs <;> simp [bind_assoc]

end

variable {R : RawAlloc UInt8} {w : World UInt8} {m : Mem UInt8} {v : Vec} {bs : List UInt8}
  {cap : Nat}

theorem unwound_false (m : Mem UInt8) (x : UInt8) : m.unwound false x = m := by
  simp [Mem.unwound]

/-- A call panics, changing nothing, if its index is out of range or it needs memory it does not get;
otherwise it does what it always does. -/
theorem SInv.stepG (h : SInv w m v bs cap) (g : Bool) (op : StrOp) :
    ((∃ e, byteStep op bs = .error e) ∨ g = false ∧ op.needsMemory bs.length cap) ∧
      Str.stepG (nullTermAllocator (defaultAllocator R)) g op v m = .ok (none, v, m) ∨
    (¬ (g = false ∧ op.needsMemory bs.length cap)) ∧ ∃ o bs' v' m' cap',
      byteStep op bs = .ok (o, bs') ∧
      Str.stepG (nullTermAllocator (defaultAllocator R)) g op v m = .ok (some o, v', m') ∧
      SInv w m' v' bs' cap' := by
  have hst := h.step (R := R) op
  have hA := nullTerm_lawful R
  cases op with
  | push c =>
    by_cases hc : g = false ∧ bs.length = cap
    · left
      refine ⟨.inr hc, ?_⟩
      simp [Str.stepG, Str.pushG, Str.insertG, h.len, h.insertG, hc, unwound_false]
    · right
      obtain ⟨v', m', cap', e1, e2, _⟩ := hst
      refine ⟨hc, _, _, v', m', cap', rfl, ?_, e2⟩
      rw [← Exec.ok_bind (.unit, v', m') (fun r : StrOut × Vec × Mem UInt8 =>
        (.ok (some r.1, r.2.1, r.2.2) : Exec _)), ← e1]
      simp [Str.stepG, Str.pushG, Str.insertG, h.len, h.insertG, hc, Str.step, Str.push, Str.insert,
        bind_assoc]
  | insert i c =>
    by_cases hi : i ≤ bs.length
    · by_cases hc : g = false ∧ bs.length = cap
      · left
        refine ⟨.inr hc, ?_⟩
        simp [Str.stepG, Str.insertG, h.insertG, hc, unwound_false]
      · right
        simp only [byteStep, if_pos hi] at hst
        obtain ⟨v', m', cap', e1, e2, _⟩ := hst
        refine ⟨hc, _, _, v', m', cap', by simp only [byteStep, if_pos hi]; rfl, ?_, e2⟩
        rw [← Exec.ok_bind (.unit, v', m') (fun r : StrOut × Vec × Mem UInt8 =>
          (.ok (some r.1, r.2.1, r.2.2) : Exec _)), ← e1]
        simp [Str.stepG, Str.insertG, h.insertG, hi, hc, Str.step, Str.insert, bind_assoc]
    · left
      refine ⟨.inl ⟨.panic, by simp [byteStep, hi]⟩, ?_⟩
      simp [Str.stepG, Str.insertG, h.insertG, hi, unwound_false]
  | reserve n =>
    cases g with
    | false =>
      left
      refine ⟨.inr ⟨rfl, trivial⟩, ?_⟩
      simp [Str.stepG, Str.reserveG, h.reserveG]
    | true =>
      right
      obtain ⟨v', m', cap', e1, e2, _⟩ := hst
      refine ⟨by simp, _, _, v', m', cap', rfl, ?_, e2⟩
      rw [← Exec.ok_bind (.unit, v', m') (fun r : StrOut × Vec × Mem UInt8 =>
        (.ok (some r.1, r.2.1, r.2.2) : Exec _)), ← e1]
      simp [Str.stepG, Str.reserveG, h.reserveG, Str.step, Str.reserve, bind_assoc]
  | assign s =>
    cases g with
    | false =>
      left
      refine ⟨.inr ⟨rfl, trivial⟩, ?_⟩
      simp [Str.stepG, Str.assignG, Str.reserveG, h.reserveG]
    | true =>
      right
      obtain ⟨v', m', cap', e1, e2, _⟩ := hst
      refine ⟨by simp, _, _, v', m', cap', rfl, ?_, e2⟩
      rw [← Exec.ok_bind (.unit, v', m') (fun r : StrOut × Vec × Mem UInt8 =>
        (.ok (some r.1, r.2.1, r.2.2) : Exec _)), ← e1]
      obtain ⟨v1, m1, f1, f2, _⟩ := h.reserve_any hA ((utf8 s).length + 1)
      simp [Str.stepG, Str.assignG, Str.reserveG, h.reserveG, f1, f2.appendG_granted, Str.step,
        Str.assign, Str.reserve, bind_assoc]
  | pop | remove i | len | isEmpty =>
    right
    obtain ⟨v', m', cap', e1, e2, _⟩ := hst
    exact ⟨by simp [StrOp.needsMemory], _, _, v', m', cap', rfl, by simp [Str.stepG, e1], e2⟩

/-- A history: the calls that returned behaved as if the others had not been made. -/
theorem SInv.runG : ∀ (calls : List (Bool × StrOp)) {m : Mem UInt8} {v : Vec} {bs : List UInt8}
    {cap : Nat}, SInv w m v bs cap →
    ∃ outs v' m' bs' cap',
      Str.runG (nullTermAllocator (defaultAllocator R)) calls v m = .ok (outs, v', m') ∧
      outs.length = calls.length ∧
      (∀ p ∈ calls.zip outs, p.2 = none → p.1.1 = false ∨ ∃ i c, p.1.2 = .insert i c) ∧
      byteRun (answered (calls.map Prod.snd) outs) bs = .ok (outs.filterMap id, bs') ∧
      SInv w m' v' bs' cap' := by
  intro calls
  induction calls with
  | nil => intro m v bs cap h; exact ⟨[], v, m, bs, cap, rfl, rfl, by simp, rfl, h⟩
  | cons c calls ih =>
    intro m v bs cap h
    obtain ⟨g, op⟩ := c
    rcases h.stepG (R := R) g op with ⟨hw, he⟩ | ⟨_, o, bs1, v1, m1, cap1, hb, he, h1⟩
    · obtain ⟨outs, v', m', bs', cap', f1, f2, f3, f4, f5⟩ := ih h
      refine ⟨none :: outs, v', m', bs', cap', by simp [Str.runG, he, f1], by simp [f2], ?_,
        by simpa [answered] using f4, f5⟩
      intro p hp
      simp only [List.zip_cons_cons, List.mem_cons] at hp
      rcases hp with rfl | hp
      · intro _
        rcases hw with ⟨e, hw⟩ | hw
        · right
          cases op with
          | insert i c => exact ⟨i, c, rfl⟩
          | _ => simp [byteStep] at hw
        · exact .inl hw.1
      · exact f3 p hp
    · obtain ⟨outs, v', m', bs', cap', f1, f2, f3, f4, f5⟩ := ih h1
      refine ⟨some o :: outs, v', m', bs', cap', by simp [Str.runG, he, f1], by simp [f2], ?_,
        by simp [answered, byteRun, hb, f4], f5⟩
      intro p hp
      simp only [List.zip_cons_cons, List.mem_cons] at hp
      rcases hp with rfl | hp
      · intro e; cases e
      · exact f3 p hp

end Verif
