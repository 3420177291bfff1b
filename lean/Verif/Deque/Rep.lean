import Verif.Deque.Model
import Verif.MemLemmas
import Verif.Vector.Proofs
import Mathlib.Data.List.Nodup
import Mathlib.Tactic.SplitIfs

/-! Representation of a deque in memory and how memory operations act on it. -/

set_option autoImplicit false

namespace Verif
open Spec

variable {α : Type}

/-- Address of position `q`, counted in cells from the start of the first subarray. -/
def cellPtr (S : Nat) (bl : List Nat) (q : Nat) : Ptr := .loc (bl.getD (q / S) 0) (q % S)

/-- The subarrays `bl` are live, distinct and apart from the rest `w` of memory. -/
structure TRep (S : Nat) (w : World α) (m : Mem α) (bl : List Nat) : Prop where
  nodup : bl.Nodup
  fresh : ∀ b ∈ bl, w b = none
  out : ∀ b, b ∉ bl → m.live b = w b
  ins : ∀ b ∈ bl, ∃ blk, m.live b = some blk ∧ blk.size = S ∧ blk.region = .heap

theorem TRep.congr {S : Nat} {w : World α} {m m' : Mem α} {bl : List Nat}
    (h : TRep S w m bl) (hl : m'.live = m.live) : TRep S w m' bl :=
  ⟨h.nodup, h.fresh, fun b hb => by rw [hl]; exact h.out b hb,
    fun b hb => by rw [hl]; exact h.ins b hb⟩

theorem Mem.read_congr {m m' : Mem α} {b o : Nat} (h : m'.live b = m.live b) :
    m'.read (.loc b o) = m.read (.loc b o) := by
  simp [Mem.read, Mem.cell, h]

theorem getD_mem {bl : List Nat} {i : Nat} (h : i < bl.length) : bl.getD i 0 ∈ bl := by
  simp [List.getD_eq_getElem?_getD, List.getElem?_eq_getElem h]

theorem getD_inj {bl : List Nat} (hn : bl.Nodup) {i j : Nat} (hi : i < bl.length)
    (hj : j < bl.length) (h : bl.getD i 0 = bl.getD j 0) : i = j := by
  simp only [List.getD_eq_getElem?_getD, List.getElem?_eq_getElem hi,
    List.getElem?_eq_getElem hj, Option.getD_some] at h
  exact (List.Nodup.getElem_inj_iff hn).1 h

theorem cellPtr_inj {S : Nat} {bl : List Nat} (hn : bl.Nodup) {q q' : Nat}
    (hq : q / S < bl.length) (hq' : q' / S < bl.length) :
    cellPtr S bl q = cellPtr S bl q' ↔ q = q' := by
  constructor
  · intro h
    simp only [cellPtr, Ptr.loc.injEq] at h
    have h1 := getD_inj hn hq hq' h.1
    rw [← Nat.div_add_mod q S, ← Nat.div_add_mod q' S, h1, h.2]
  · rintro rfl; rfl

theorem Mem.write_read_ne {m m' : Mem α} {b o b' o' : Nat} {x : α}
    (h : m.write (.loc b o) x = .ok m') (hne : Ptr.loc b' o' ≠ .loc b o) :
    m'.read (.loc b' o') = m.read (.loc b' o') := by
  unfold Mem.write at h
  cases hb : m.live b with
  | none => simp [hb] at h
  | some blk =>
    simp only [hb] at h
    split_ifs at h with ho
    simp only [Except.ok.injEq] at h
    subst h
    by_cases hbb : b' = b
    · subst hbb
      have : o' ≠ o := fun h => hne (by rw [h])
      simp [Mem.read, Mem.cell, hb, this]
    · exact Mem.read_congr (by simp [hbb])

theorem Mem.write_read_self {m m' : Mem α} {b o : Nat} {x : α}
    (h : m.write (.loc b o) x = .ok m') : m'.read (.loc b o) = .ok x := by
  unfold Mem.write at h
  cases hb : m.live b with
  | none => simp [hb] at h
  | some blk =>
    simp only [hb] at h
    split_ifs at h with ho
    simp only [Except.ok.injEq] at h
    subst h
    simp [Mem.read, Mem.cell, ho]

theorem TRep.write {S : Nat} {w : World α} {m : Mem α} {bl : List Nat} (h : TRep S w m bl)
    (hS : 0 < S) {q : Nat} (hq : q / S < bl.length) (x : α) :
    ∃ m', m.write (cellPtr S bl q) x = .ok m' ∧ TRep S w m' bl ∧ m'.dropped = m.dropped ∧
      m'.read (cellPtr S bl q) = .ok x ∧
      ∀ q', q' / S < bl.length → q' ≠ q →
        m'.read (cellPtr S bl q') = m.read (cellPtr S bl q') := by
  obtain ⟨blk, hb, hs, hr⟩ := h.ins _ (getD_mem hq)
  have hlt : q % S < blk.size := by rw [hs]; exact Nat.mod_lt _ hS
  have hw := Mem.write_loc x hb hlt
  refine ⟨_, hw, ⟨h.nodup, h.fresh, ?_, ?_⟩, rfl, ?_, ?_⟩
  · intro b hnb
    have : b ≠ bl.getD (q / S) 0 := fun e => hnb (e ▸ getD_mem hq)
    rw [Mem.setBlock_live, Function.update_of_ne this]
    exact h.out b hnb
  · intro b hb'
    by_cases hbe : b = bl.getD (q / S) 0
    · exact ⟨{ blk with cells := Function.update blk.cells (q % S) (some x) },
        by rw [Mem.setBlock_live, hbe, Function.update_self], hs, hr⟩
    · obtain ⟨blk', h1, h2⟩ := h.ins b hb'
      exact ⟨blk', by rw [Mem.setBlock_live, Function.update_of_ne hbe]; exact h1, h2⟩
  · exact Mem.write_read_self hw
  · intro q' hq' hne
    exact Mem.write_read_ne hw (fun e => hne ((cellPtr_inj h.nodup hq' hq).1 e))

theorem TRep.ptrAdd {S : Nat} {w : World α} {m : Mem α} {bl : List Nat} (h : TRep S w m bl)
    {i o n : Nat} (hi : i < bl.length) (ho : o + n ≤ S) :
    m.ptrAdd (.loc (bl.getD i 0) o) n = .ok (.loc (bl.getD i 0) (o + n)) := by
  obtain ⟨blk, hb, hs, _⟩ := h.ins _ (getD_mem hi)
  exact Mem.ptrAdd_loc hb (by omega)

theorem TRep.ptrSub {S : Nat} {w : World α} {m : Mem α} {bl : List Nat} (h : TRep S w m bl)
    {i o n : Nat} (hi : i < bl.length) (ho : n ≤ o) :
    m.ptrSub (.loc (bl.getD i 0) o) n = .ok (.loc (bl.getD i 0) (o - n)) := by
  obtain ⟨blk, hb, _, _⟩ := h.ins _ (getD_mem hi)
  exact Mem.ptrSub_loc hb ho

/-- Allocating a new subarray, whichever end it is put at. -/
theorem TRep.alloc {S : Nat} {w : World α} {m : Mem α} {bl : List Nat} (h : TRep S w m bl)
    (hS : 0 < S) (R : RawAlloc α) :
    ∃ b m', (defaultAllocator R).alloc S m = .ok (.loc b 0, m') ∧ b ∉ bl ∧
      TRep S w m' (bl ++ [b]) ∧ TRep S w m' (b :: bl) ∧ m'.dropped = m.dropped ∧
      ∀ b' o, b' ∈ bl → m'.read (.loc b' o) = m.read (.loc b' o) := by
  have hf := R.fresh m S
  have hnb : R.pick m S ∉ bl := by
    intro hb
    obtain ⟨blk, h1, _⟩ := h.ins _ hb
    rw [hf] at h1; cases h1
  have hw : w (R.pick m S) = none := by rw [← h.out _ hnb]; exact hf
  have hout : ∀ b, b ∉ bl → b ≠ R.pick m S →
      (R.alloc S m).2.live b = w b := by
    intro b h1 h2
    simpa [RawAlloc.alloc, Function.update_apply, h2] using h.out b h1
  have hin : ∀ b, b ∈ bl ∨ b = R.pick m S →
      ∃ blk, (R.alloc S m).2.live b = some blk ∧ blk.size = S ∧ blk.region = .heap := by
    intro b hb
    by_cases he : b = R.pick m S
    · exact ⟨⟨S, .heap, fun _ => none⟩, by simp [RawAlloc.alloc, he], rfl, rfl⟩
    · obtain ⟨blk, h1, h2⟩ := h.ins b (hb.resolve_right he)
      exact ⟨blk, by simpa [RawAlloc.alloc, Function.update_apply, he] using h1, h2⟩
  refine ⟨R.pick m S, (R.alloc S m).2, ?_, hnb, ⟨?_, ?_, ?_, ?_⟩, ⟨?_, ?_, ?_, ?_⟩, rfl, ?_⟩
  · have : S ≠ 0 := by omega
    simp [defaultAllocator, this, RawAlloc.alloc]
  · simp only [List.nodup_append, h.nodup, List.nodup_singleton, true_and, List.mem_singleton]
    rintro a ha b rfl rfl
    exact hnb ha
  · intro b hb
    rcases List.mem_append.1 hb with hb | hb
    · exact h.fresh b hb
    · rw [List.mem_singleton.1 hb]; exact hw
  · intro b hb
    simp only [List.mem_append, List.mem_singleton, not_or] at hb
    exact hout b hb.1 hb.2
  · intro b hb
    simp only [List.mem_append, List.mem_singleton] at hb
    exact hin b hb
  · exact List.nodup_cons.2 ⟨hnb, h.nodup⟩
  · intro b hb
    rcases List.mem_cons.1 hb with hb | hb
    · rw [hb]; exact hw
    · exact h.fresh b hb
  · intro b hb
    simp only [List.mem_cons, not_or] at hb
    exact hout b hb.2 hb.1
  · intro b hb
    simp only [List.mem_cons] at hb
    exact hin b hb.symm
  · intro b' o hb'
    have : b' ≠ R.pick m S := fun e => hnb (e ▸ hb')
    exact Mem.read_congr (by simp [RawAlloc.alloc, this])

/-- Freeing one subarray. -/
theorem TRep.free {S : Nat} {w : World α} {m : Mem α} {l1 l2 : List Nat} {b : Nat}
    (h : TRep S w m (l1 ++ b :: l2)) (R : RawAlloc α) :
    ∃ m', (defaultAllocator R).dealloc (.loc b 0) S m = .ok m' ∧ TRep S w m' (l1 ++ l2) ∧
      m'.dropped = m.dropped ∧
      ∀ b' o, b' ∈ l1 ++ l2 → m'.read (.loc b' o) = m.read (.loc b' o) := by
  obtain ⟨blk, hb, hs, hr⟩ := h.ins b (by simp)
  have hnb : b ∉ l1 ++ l2 := by
    have hn := h.nodup
    rw [List.nodup_middle] at hn
    exact (List.nodup_cons.1 hn).1
  have hmem : ∀ b', b' ∈ l1 ++ l2 → b' ∈ l1 ++ b :: l2 := by
    intro b' hb'
    simp only [List.mem_append, List.mem_cons] at hb' ⊢
    tauto
  refine ⟨m.setBlock b none, ?_, ⟨?_, ?_, ?_, ?_⟩, rfl, ?_⟩
  · simp [defaultAllocator, rawDealloc, hb, hs, hr]
  · have hn := h.nodup
    rw [List.nodup_middle] at hn
    exact (List.nodup_cons.1 hn).2
  · intro b' hb'
    exact h.fresh b' (hmem b' hb')
  · intro b' hb'
    by_cases he : b' = b
    · subst he
      simp [h.fresh b' (by simp)]
    · have : b' ∉ l1 ++ b :: l2 := by
        simp only [List.mem_append, List.mem_cons] at hb' ⊢
        tauto
      simpa [Function.update_apply, he] using h.out b' this
  · intro b' hb'
    have he : b' ≠ b := fun e => hnb (e ▸ hb')
    obtain ⟨blk', h1, h2⟩ := h.ins b' (hmem b' hb')
    exact ⟨blk', by simpa [Function.update_apply, he] using h1, h2⟩
  · intro b' o hb'
    have he : b' ≠ b := fun e => hnb (e ▸ hb')
    exact Mem.read_congr (by simp [he])

/-- The pointer array: block `pb` of `size` pointers, those from `lo` on naming `bl`. -/
structure PtRep (w : World Ptr) (m : Mem Ptr) (pb size lo : Nat) (bl : List Nat) : Prop where
  fresh : w pb = none
  out : ∀ b, b ≠ pb → m.live b = w b
  ins : ∃ blk, m.live pb = some blk ∧ blk.size = size ∧ blk.region = .heap
  fits : lo + bl.length ≤ size
  cells : ∀ i, i < bl.length → m.read (.loc pb (lo + i)) = .ok (.loc (bl.getD i 0) 0)

theorem PtRep.ptrAdd {w : World Ptr} {m : Mem Ptr} {pb size lo : Nat} {bl : List Nat}
    (h : PtRep w m pb size lo bl) {o n : Nat} (ho : o + n ≤ size) :
    m.ptrAdd (.loc pb o) n = .ok (.loc pb (o + n)) := by
  obtain ⟨blk, hb, hs, _⟩ := h.ins
  exact Mem.ptrAdd_loc hb (by omega)

theorem PtRep.ptrSub {w : World Ptr} {m : Mem Ptr} {pb size lo : Nat} {bl : List Nat}
    (h : PtRep w m pb size lo bl) {o n : Nat} (ho : n ≤ o) :
    m.ptrSub (.loc pb o) n = .ok (.loc pb (o - n)) := by
  obtain ⟨blk, hb, hs, _⟩ := h.ins
  exact Mem.ptrSub_loc hb ho

/-- Writing a pointer next to either end. -/
theorem PtRep.write {w : World Ptr} {m : Mem Ptr} {pb size lo : Nat} {bl : List Nat}
    (h : PtRep w m pb size lo bl) {o b : Nat} (ho : o < size) :
    ∃ m', m.write (.loc pb o) (.loc b 0) = .ok m' ∧
      m'.read (.loc pb o) = .ok (.loc b 0) ∧
      (o = lo + bl.length → PtRep w m' pb size lo (bl ++ [b])) ∧
      (o + 1 = lo → PtRep w m' pb size o (b :: bl)) := by
  obtain ⟨blk, hb, hs, hr⟩ := h.ins
  have hlt : o < blk.size := by omega
  have hw := Mem.write_loc (.loc b 0) hb hlt
  refine ⟨_, hw, ?_, ?_, ?_⟩
  · exact Mem.write_read_self hw
  · intro ho'
    refine ⟨h.fresh, ?_, ⟨{ blk with cells := Function.update blk.cells o (some (.loc b 0)) }, by simp, hs, hr⟩, ?_, ?_⟩
    · intro b' hb'
      simpa [Function.update_apply, hb'] using h.out b' hb'
    · simp; omega
    · intro i hi
      simp only [List.length_append, List.length_singleton] at hi
      by_cases he : i = bl.length
      · subst he
        rw [← ho']
        rw [Mem.write_read_self hw]
        simp
      · have hi' : i < bl.length := by omega
        have hne : Ptr.loc pb (lo + i) ≠ .loc pb o := by
          intro e; simp only [Ptr.loc.injEq, true_and] at e; omega
        rw [Mem.write_read_ne hw hne, h.cells i hi']
        simp [List.getElem?_append_left hi']
  · intro ho'
    refine ⟨h.fresh, ?_, ⟨{ blk with cells := Function.update blk.cells o (some (.loc b 0)) }, by simp, hs, hr⟩, ?_, ?_⟩
    · intro b' hb'
      simpa [Function.update_apply, hb'] using h.out b' hb'
    · have := h.fits; simp; omega
    · intro i hi
      simp only [List.length_cons] at hi
      cases i with
      | zero =>
        rw [Nat.add_zero, Mem.write_read_self hw]
        simp
      | succ i =>
        have hne : Ptr.loc pb (o + (i + 1)) ≠ .loc pb o := by
          intro e; simp only [Ptr.loc.injEq, true_and] at e; omega
        rw [Mem.write_read_ne hw hne, show o + (i + 1) = lo + i by omega,
          h.cells i (by omega)]
        simp

end Verif
