import Verif.Borrow.Law
import Verif.Borrow.Cells
import Verif.Vector.Refine

/-! What the memory operations do to the sizes of blocks. -/

set_option autoImplicit false

namespace Verif
open Spec

variable {α : Type}

/-- The size of a block. -/
def sz (m : Mem α) (b : Nat) : Option Nat := (m.live b).map Block.size

theorem write_sz {m m' : Mem α} {p : Ptr} {x : α} (h : m.write p x = .ok m') :
    (∃ b o n, p = .loc b o ∧ sz m b = some n ∧ o < n) ∧ sz m' = sz m := by
  cases p with
  | null => cases h
  | loc b o =>
    simp only [Mem.write] at h
    cases hl : m.live b with
    | none => rw [hl] at h; cases h
    | some blk =>
      rw [hl] at h
      simp only at h
      split_ifs at h with ho
      cases h
      refine ⟨⟨b, o, blk.size, rfl, by simp [sz, hl], ho⟩, ?_⟩
      funext c
      by_cases hc : c = b
      · subst hc; simp [sz, hl]
      · simp [sz, hc]

theorem read_sz {m : Mem α} {p : Ptr} {x : α} (h : m.read p = .ok x) :
    ∃ b o n, p = .loc b o ∧ sz m b = some n ∧ o < n := by
  cases p with
  | null => cases h
  | loc b o =>
    simp only [Mem.read, Mem.cell] at h
    cases hl : m.live b with
    | none => rw [hl] at h; cases h
    | some blk =>
      rw [hl] at h
      simp only at h
      by_cases ho : o < blk.size
      · exact ⟨b, o, blk.size, rfl, by simp [sz, hl], ho⟩
      · simp [ho] at h

theorem copy_sz {m m' : Mem α} {p q : Ptr} {k : Nat} (h : m.copy p q k = .ok m') :
    (∃ b o n b' o' n', p = .loc b o ∧ q = .loc b' o' ∧ sz m b = some n ∧ sz m b' = some n' ∧
      o + k ≤ n ∧ o' + k ≤ n') ∧ sz m' = sz m := by
  cases p with
  | null => cases h
  | loc b o =>
    cases q with
    | null => cases h
    | loc b' o' =>
      simp only [Mem.copy] at h
      cases hl : m.live b with
      | none => rw [hl] at h; cases h
      | some s =>
        cases hl' : m.live b' with
        | none => rw [hl, hl'] at h; cases h
        | some u =>
          rw [hl, hl'] at h
          simp only at h
          split_ifs at h with ho
          cases h
          refine ⟨⟨b, o, s.size, b', o', u.size, rfl, rfl, by simp [sz, hl], by simp [sz, hl'], ho⟩, ?_⟩
          funext c
          by_cases hc : c = b'
          · subst hc; simp [sz, hl']
          · simp [sz, hc]

theorem dropCell_sz {nd : Bool} {m m' : Mem α} {p : Ptr} (h : m.dropCell nd p = .ok m') : sz m' = sz m := by
  unfold Mem.dropCell at h
  split_ifs at h
  · obtain ⟨x, _, h⟩ := bind_inv h
    cases h
    rfl
  · cases h; rfl

theorem dropRange_sz {nd : Bool} : ∀ {n : Nat} {m m' : Mem α} {p : Ptr},
    m.dropRange nd p n = .ok m' → sz m' = sz m
  | 0, m, m', p, h => by cases h; rfl
  | n + 1, m, m', p, h => by
    obtain ⟨m1, e, h⟩ := bind_inv h
    rw [dropRange_sz h, dropCell_sz e]

theorem cloneFrom_sz {nd : Bool} : ∀ {buf : List α} {m m' : Mem α} {p : Ptr},
    m.cloneFrom nd p buf = .ok m' → sz m' = sz m
  | [], m, m', p, h => by cases h; rfl
  | x :: buf, m, m', p, h => by
    obtain ⟨m1, e, h⟩ := bind_inv h
    obtain ⟨m2, e2, h⟩ := bind_inv h
    rw [cloneFrom_sz h, (write_sz e2).2, dropCell_sz e]

theorem ptrAdd_sz {m : Mem α} {b o k : Nat} {q : Ptr} (h : m.ptrAdd (.loc b o) k = .ok q) :
    q = .loc b (o + k) ∧ ∃ n, sz m b = some n ∧ o + k ≤ n := by
  simp only [Mem.ptrAdd] at h
  cases hl : m.live b with
  | none => rw [hl] at h; cases h
  | some blk =>
    rw [hl] at h
    simp only at h
    split_ifs at h with ho
    cases h
    exact ⟨rfl, blk.size, by simp [sz, hl], ho⟩

theorem ptrSub_sz {m : Mem α} {b o k : Nat} {q : Ptr} (h : m.ptrSub (.loc b o) k = .ok q) :
    q = .loc b (o - k) := by
  simp only [Mem.ptrSub] at h
  cases hl : m.live b with
  | none => rw [hl] at h; cases h
  | some blk =>
    rw [hl] at h
    simp only at h
    split_ifs at h with ho
    cases h
    rfl

theorem alloc_sz {R : RawAlloc α} {m m' : Mem α} {n : Nat} {p : Ptr}
    (h : (defaultAllocator R).alloc n m = .ok (p, m')) :
    0 < n ∧ ∃ b, p = .loc b 0 ∧ sz m b = none ∧ sz m' = Function.update (sz m) b (some n) := by
  simp only [defaultAllocator] at h
  split_ifs at h with hn
  cases h
  refine ⟨by omega, R.pick m n, rfl, by simp [sz, R.fresh], ?_⟩
  funext c
  by_cases hc : c = R.pick m n
  · subst hc; simp [sz]
  · simp [sz, hc]

theorem dealloc_sz {R : RawAlloc α} {m m' : Mem α} {b n : Nat}
    (h : (defaultAllocator R).dealloc (.loc b 0) n m = .ok m') :
    sz m b = some n ∧ sz m' = Function.update (sz m) b none := by
  simp only [defaultAllocator, rawDealloc] at h
  cases hl : m.live b with
  | none => rw [hl] at h; cases h
  | some blk =>
    rw [hl] at h
    simp only at h
    split_ifs at h with ho
    cases h
    refine ⟨by simp [sz, hl, ho.2], ?_⟩
    funext c
    by_cases hc : c = b
    · subst hc; simp [sz]
    · simp [sz, hc]

end Verif
