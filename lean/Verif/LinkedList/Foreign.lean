import Verif.LinkedList.Inv

/-!
# C++ reading a list that Rust wrote

`List` and `ListNodeBase` have the fields of EASTL's `ListBase` and `ListNodeBase`
(src/list/mod.rs:17-25, src/list/node.rs:3-7): the sentinel `mNode` with `mpNext` and `mpPrev`,
then `mSize`.  These are the loops of C++ code over such a list (EASTL's `list.h`); they are not
part of /repo.
-/

set_option autoImplicit false

namespace Verif
open Spec

variable {α σ : Type}

/-- C++ `for (p = mNode.mpNext; p != &mNode; p = p->mpNext)`: the values visited.  The first
argument bounds the number of rounds. -/
def LMem.cxxWalk (m : LMem α) (head : Nat) : Nat → Nat → Exec (List α)
  | 0, _ => .error .ub
  | fuel + 1, p =>
    if p = head then .ok []
    else do
      let x ← LMem.val m p
      let p ← LMem.next m p
      let xs ← LMem.cxxWalk m head fuel p
      .ok (x :: xs)

/-- C++ `for (p = mNode.mpPrev; p != &mNode; p = p->mpPrev)`. -/
def LMem.cxxWalkBack (m : LMem α) (head : Nat) : Nat → Nat → Exec (List α)
  | 0, _ => .error .ub
  | fuel + 1, p =>
    if p = head then .ok []
    else do
      let x ← LMem.val m p
      let p ← LMem.prev m p
      let xs ← LMem.cxxWalkBack m head fuel p
      .ok (x :: xs)

/-- A whole C++ loop forwards, or backwards. -/
def LList.cxxLoop (l : LList σ) (back : Bool) (fuel : Nat) (m : LMem α) : Exec (List α) := do
  if back then do
    let p ← LMem.prev m l.head
    LMem.cxxWalkBack m l.head fuel p
  else do
    let p ← LMem.next m l.head
    LMem.cxxWalk m l.head fuel p

theorem LChain.cxxWalk {m : LMem α} {b : Nat} : ∀ {ps : List Nat} {xs : List α} {a fuel : Nat},
    LChain m a ps b → b ∉ ps → ps.map (fun p => LMem.val m p) = xs.map Except.ok →
    ps.length < fuel → LMem.cxxWalk m b fuel (ps.head?.getD b) = .ok xs := by
  intro ps
  induction ps with
  | nil =>
    intro xs a fuel _ _ hv hf
    obtain ⟨f, rfl⟩ : ∃ f, fuel = f + 1 := ⟨fuel - 1, by simp at hf; omega⟩
    cases xs with
    | nil => simp [LMem.cxxWalk]
    | cons => simp at hv
  | cons p ps ih =>
    intro xs a fuel h hb hv hf
    obtain ⟨f, rfl⟩ : ∃ f, fuel = f + 1 := ⟨fuel - 1, by simp at hf; omega⟩
    cases xs with
    | nil => simp at hv
    | cons x xs =>
      simp only [List.map_cons, List.cons.injEq] at hv
      have hpb : p ≠ b := fun e => hb (by simp [e])
      have := ih h.2.2 (fun hm => hb (List.mem_cons_of_mem _ hm)) hv.2 (fuel := f)
        (by simp at hf; omega)
      simp only [List.head?_cons, Option.getD_some, LMem.cxxWalk, if_neg hpb, hv.1, Exec.ok_bind,
        h.2.2.next_head, this]

theorem LChain.dropLast {m : LMem α} {b p : Nat} : ∀ {ps : List Nat} {a : Nat},
    LChain m a (ps ++ [p]) b → LChain m a ps p := by
  intro ps
  induction ps with
  | nil => intro a h; exact ⟨h.1, h.2.1⟩
  | cons q ps ih => intro a h; exact ⟨h.1, h.2.1, ih h.2.2⟩

theorem LChain.cxxWalkBack {m : LMem α} {a : Nat} : ∀ {ps : List Nat} {xs : List α} {b fuel : Nat},
    LChain m a ps b → a ∉ ps → ps.map (fun p => LMem.val m p) = xs.map Except.ok →
    ps.length < fuel → LMem.cxxWalkBack m a fuel (ps.getLast?.getD a) = .ok xs.reverse := by
  intro ps
  induction ps using List.reverseRecOn with
  | nil =>
    intro xs b fuel _ _ hv hf
    obtain ⟨f, rfl⟩ : ∃ f, fuel = f + 1 := ⟨fuel - 1, by simp at hf; omega⟩
    cases xs with
    | nil => simp [LMem.cxxWalkBack]
    | cons => simp at hv
  | append_singleton ps p ih =>
    intro xs b fuel h hb hv hf
    obtain ⟨f, rfl⟩ : ∃ f, fuel = f + 1 := ⟨fuel - 1, by simp at hf; omega⟩
    rcases List.eq_nil_or_concat xs with rfl | ⟨xs, x, rfl⟩
    · simp at hv
    · simp only [List.concat_eq_append, List.map_append, List.map_cons, List.map_nil] at hv
      have hlen : ps.length = xs.length := by
        have := congrArg List.length hv; simpa using this
      obtain ⟨hv1, hv2⟩ := List.append_inj hv (by simpa using hlen)
      simp only [List.cons.injEq, and_true] at hv2
      have hpb : p ≠ a := fun e => hb (by simp [e])
      have hpre := h.dropLast
      have := ih hpre (fun hm => hb (by simp [hm])) hv1 (fuel := f) (by simp at hf; omega)
      simp only [List.getLast?_concat, Option.getD_some, LMem.cxxWalkBack, if_neg hpb, hv2,
        Exec.ok_bind, hpre.prev_last, this]
      simp

theorem LRep.cxxLoop {Inv : σ → LMem α → List Nat → Prop} {m : LMem α} {l : LList σ}
    {ps : List Nat} {xs : List α} (h : LRep Inv m l ps xs) (back : Bool) {fuel : Nat}
    (hf : xs.length < fuel) :
    l.cxxLoop back fuel m = .ok (if back then xs.reverse else xs) := by
  have hn := (List.nodup_cons.1 h.nodup).1
  have hl := h.length
  cases back with
  | false =>
    simp only [LList.cxxLoop, Bool.false_eq_true, if_false, h.chain.next_head, Exec.ok_bind]
    exact h.chain.cxxWalk hn h.vals (by omega)
  | true =>
    simp only [LList.cxxLoop, if_true, h.chain.prev_last, Exec.ok_bind]
    exact h.chain.cxxWalkBack hn h.vals (by omega)

end Verif
