import Verif.Machine.FixedList
import Verif.Props.ListCounter

/-!
# Fixed lists in both build modes (C158)

`fuel` bounds the iterations of the loop of `clear`; any bound larger than the list ever was does.
-/

set_option autoImplicit false

namespace Verif
open Spec

variable {α : Type} {size align s buf len : Nat} {m0 : LMem α}

theorem ListOp.length_le_peak (ops : List (ListOp α)) : ∀ xs : List α,
    (ListOp.run ops xs).2.length ≤ ListOp.peak ops xs := by
  induction ops with
  | nil => intro xs; exact Nat.le_refl _
  | cons op ops ih => intro xs; exact Nat.le_trans (ih _) (Nat.le_max_right _ _)

/-- C158.  A fixed list that never has 2^32 elements does the same in both builds: no assertion of its
pool fails and nothing overflows, every history returns what it returns on a mathematical sequence,
other memory is untouched, and dropping the list gives back what it took and drops every value that
was not handed out, exactly once. -/
theorem C158_fixed_list_builds (B : Build) (P : Placer (LNode α) α) (nd : Bool)
    (h : FixedObj m0 size align s buf len) (hend : buf + len < 2 ^ 64) (ops : List (ListOp α))
    (hp : ListOp.peak ops [] < 2 ^ 32) (fuel : Nat) (hf : ListOp.peak ops [] < fuel) :
    ∃ l m l' m' drops, fixedListHistoryM B P size align nd s buf len fuel ops m0 =
        .ok ((ListOp.run ops []).1, l, m) ∧ l.size = (ListOp.run ops []).2.length ∧
      (∀ z, z ≠ s → m0.node z ≠ none → m.node z = m0.node z) ∧
      l.clearW (fixedListEnvM B P size align nd) fuel m = .ok (l', m') ∧ m'.reg = m0.reg ∧
      m'.dropped = m0.dropped ++ (if nd then drops else []) ∧
      (ListOp.allIn ops []).Perm (ListOp.allOut ops [] ++ drops) := by
  obtain ⟨l, m, ps, r, h1, h2, R, h4, h5, h6⟩ :=
    fixedList_historyM B P nd h hend fuel ops hf (.inr hp)
  have L : LLaw (fixedListEnvM B P size align nd)
      (OInv m0 buf (roundUp align buf) size align (roomFor size align buf len)) :=
    (OInv.law R P LNode.uninit (size * baseSize) baseAlign).builds B
  rw [outsU32_small ops [] hp] at h1
  have hle := ListOp.length_le_peak ops ([] : List α)
  obtain ⟨l', m', e1, _, e3, e4, _⟩ := h4.clear L
  refine ⟨_, m, _, m', ListOp.allDropped ops [] ++ (ListOp.run ops []).2, h1,
    Nat.mod_eq_of_lt (Nat.lt_of_le_of_lt hle hp), fun z hz hn => (h6 z hn (by simpa using hz)).2,
    clearW_of (n := (ListOp.run ops []).2.length % 2 ^ 32) e1 (by rw [h4.size]; omega), ?_, ?_,
    by simpa using ListOp.run_accounts ops []⟩
  · obtain ⟨pp, qs, fs, k, mB, hp, hI⟩ := e4.inv
    have hnil := List.append_eq_nil_iff.1 (List.nil_perm.1 hp)
    obtain ⟨rfl, rfl⟩ := hnil
    rw [hI.over.done, hI.reg]
  · rw [e3, h5, show (fixedListEnvM B P size align nd).nd = nd from rfl]
    cases nd <;> simp

/-- C158 for lists of any length, in release builds: all results but those of `len` and `is_empty` are
right, and these are right modulo 2^32, the fault of C109; dropping is as in C158_fixed_list_builds. -/
theorem C158_fixed_list_release (P : Placer (LNode α) α) (nd : Bool)
    (h : FixedObj m0 size align s buf len) (hend : buf + len < 2 ^ 64) (ops : List (ListOp α))
    (fuel : Nat) (hf : ListOp.peak ops [] < fuel) :
    ∃ l m l' m' drops, fixedListHistoryM .release P size align nd s buf len fuel ops m0 =
        .ok (ListOp.outsU32 ops [], l, m) ∧
      (∀ z, z ≠ s → m0.node z ≠ none → m.node z = m0.node z) ∧
      l.clearW (fixedListEnvM .release P size align nd) fuel m = .ok (l', m') ∧ m'.reg = m0.reg ∧
      m'.dropped = m0.dropped ++ (if nd then drops else []) ∧
      (ListOp.allIn ops []).Perm (ListOp.allOut ops [] ++ drops) := by
  obtain ⟨l, m, ps, r, h1, h2, R, h4, h5, h6⟩ :=
    fixedList_historyM .release P nd h hend fuel ops hf (.inl rfl)
  have L : LLaw (fixedListEnvM .release P size align nd)
      (OInv m0 buf (roundUp align buf) size align (roomFor size align buf len)) :=
    (OInv.law R P LNode.uninit (size * baseSize) baseAlign).builds .release
  have hle := ListOp.length_le_peak ops ([] : List α)
  obtain ⟨l', m', e1, _, e3, e4, _⟩ := h4.clear L
  refine ⟨_, m, _, m', ListOp.allDropped ops [] ++ (ListOp.run ops []).2, h1,
    fun z hz hn => (h6 z hn (by simpa using hz)).2,
    clearW_of (n := (ListOp.run ops []).2.length % 2 ^ 32) e1 (by rw [h4.size]; omega), ?_, ?_,
    by simpa using ListOp.run_accounts ops []⟩
  · obtain ⟨pp, qs, fs, k, mB, hp, hI⟩ := e4.inv
    have hnil := List.append_eq_nil_iff.1 (List.nil_perm.1 hp)
    obtain ⟨rfl, rfl⟩ := hnil
    rw [hI.over.done, hI.reg]
  · rw [e3, h5, show (fixedListEnvM .release P size align nd).nd = nd from rfl]
    cases nd <;> simp

/-- C158, where elements are: in both builds a pushed element is put into a node of the buffer exactly
if not all of them are occupied; then, and only then, no block is allocated. -/
theorem C158_inline_first (B : Build) (P : Placer (LNode α) α) (nd : Bool)
    (h : FixedObj m0 size align s buf len) (hend : buf + len < 2 ^ 64) (ops : List (ListOp α))
    (hp : ListOp.peak ops [] + 1 < 2 ^ 32) (fuel : Nat) (hf : ListOp.peak ops [] < fuel) (x : α)
    (front : Bool) :
    ∃ outs l m ps p l' m', fixedListHistoryM B P size align nd s buf len fuel ops m0 =
        .ok (outs, l, m) ∧ l.addrs m = .ok ps ∧
      (if front then l.pushFrontW B (fixedListEnvM B P size align nd) x m
        else l.pushBackW B (fixedListEnvM B P size align nd) x m) = .ok (l', m') ∧
      l'.addrs m' = .ok (if front then p :: ps else ps ++ [p]) ∧
      (inSlots size align buf len p ↔
        ps.countP (inSlots size align buf len) < roomFor size align buf len) ∧
      (inSlots size align buf len p ↔ m'.reg = m.reg) := by
  obtain ⟨l1, m1, ps, r, h1, h2, R, h4, _⟩ :=
    fixedList_historyM B P nd h hend fuel ops hf (.inr (by omega))
  have hle := ListOp.length_le_peak ops ([] : List α)
  have hsz : l1.size = (ListOp.run ops []).2.length := h4.size
  have hl1 : l1.withSize ((ListOp.run ops []).2.length % 2 ^ 32) = l1 := by
    rw [Nat.mod_eq_of_lt (by omega), ← hsz]; rfl
  rw [hl1] at h1
  have L : LLaw (fixedListEnvM B P size align nd)
      (OInv m0 buf (roundUp align buf) size align (roomFor size align buf len)) :=
    (OInv.law R P LNode.uninit (size * baseSize) baseAlign).builds B
  have hw : B.wrapTo (2 ^ 32) ((l1.size : Int) + 1) = .ok (l1.size + 1) :=
    B.wrapTo_ok (n := l1.size + 1) (by omega) (by omega)
  obtain ⟨l', m', p, e1, e1', ⟨a1, m2, e2⟩, e3⟩ : ∃ l' m' p,
      (if front then l1.pushFrontW B (fixedListEnvM B P size align nd) x m1
        else l1.pushBackW B (fixedListEnvM B P size align nd) x m1) = .ok (l', m') ∧
      (if front then l1.pushFront (fixedListEnvM B P size align nd) x m1
        else l1.pushBack (fixedListEnvM B P size align nd) x m1) = .ok (l', m') ∧
      (∃ a1 m2, (fixedListEnvM B P size align nd).A.alloc size align l1.al m1 = .ok (p, a1, m2)) ∧
      l'.addrs m' = .ok (if front then p :: ps else ps ++ [p]) := by
    cases front with
    | false =>
      obtain ⟨l', m', p, e1, _, ⟨_, e2⟩, _, e4, _⟩ := h4.pushBack L x
      have hl' : l'.withSize (l1.size + 1) = l' := by
        have := e4.size
        rw [List.length_append, List.length_singleton, ← hsz] at this
        rw [← this]; rfl
      have := pushBackW_of e1 hw
      rw [hl'] at this
      exact ⟨l', m', p, this, e1, e2, e4.addrs⟩
    | true =>
      obtain ⟨l', m', p, e1, _, ⟨_, e2⟩, _, e4, _⟩ := h4.pushFront L x
      have hl' : l'.withSize (l1.size + 1) = l' := by
        have := e4.size
        rw [List.length_cons, ← hsz] at this
        rw [← this]; rfl
      have := pushFrontW_of e1 hw
      rw [hl'] at this
      exact ⟨l', m', p, this, e1, e2, e4.addrs⟩
  refine ⟨_, l1, m1, ps, p, l', m', h1, h4.addrs, e1, e3, ?_⟩
  rw [push_reg e1' e2]
  obtain ⟨pp, qs, fs, k, mB, hpp, hI⟩ := h4.inv
  have hcount : ps.countP (inSlots size align buf len) = pp.length := hI.inline_eq R hpp
  have hlen := hI.pool.length
  have hle := hI.pool.le
  have hpos := hI.pool.pos
  obtain ⟨p', s', m'', f1, f2, f3, _, _, f6⟩ := hI.alloc R P LNode.uninit
  have f1' : (fixedListEnvM B P size align nd).A.alloc size align l1.al m1 = .ok (p', s', m'') := by
    rw [← f1]; exact opoolNAllocM_alloc B LNode.uninit size align _ l1.al m1
  rw [e2] at f1'
  simp only [Except.ok.injEq, Prod.mk.injEq] at f1'
  obtain ⟨rfl, rfl, rfl⟩ := f1'
  rw [hcount]
  rcases f6 with ⟨hlt, hreg, fs', k', mB', h'⟩ | ⟨heq, h'⟩
  · have hs : inSlots size align buf len p := by
      have := h'.pool.bounds (p := p) (by simp)
      exact ⟨this.1, by omega⟩
    exact ⟨⟨fun _ => hlt, fun _ => hs⟩, fun _ => hreg, fun _ => hs⟩
  · have hs : ¬ inSlots size align buf len p := by
      intro hs
      have h1 := R.lo_le
      have h2 := R.obj_le
      have h3 := R.lt
      rcases h'.over_outside R (q := p) (by simp) with h' | h' <;> have := hs.1 <;>
        have := hs.2 <;> omega
    have hreg := hI.reg_eq h'
    refine ⟨⟨fun e => absurd e hs, fun e => by omega⟩, fun e => absurd e hs, fun e => ?_⟩
    rw [e, hreg.1] at hreg
    simp at hreg

/-- The object of a fixed list of two nodes is such an object, and a history with an overflow runs alike
in both builds. -/
example : FixedObj exampleFixedMem 24 8 64 128 (2 * 24) ∧ 128 + 2 * 24 < 2 ^ 64 ∧
    ∀ B ∈ [Build.debug, Build.release], (do
      let (os, l, m) ← fixedListHistoryM B Placer.bump 24 8 true 64 128 (2 * 24) 9
        [.pushBack 1, .pushBack 2, .pushFront 3, .popBack, .extend [4, 5], .popFront, .len]
        exampleFixedMem
      let ps ← l.addrs m
      let (l, m) ← l.clearW (fixedListEnvM B Placer.bump 24 8 true) 9 m
      .ok (os.filterMap fun | .elem x => x | .nat n => some n | _ => none,
        ps.map (inSlots 24 8 128 (2 * 24) · |> decide), l.size, m.dropped)) =
    (.ok ([2, 3, 3], [true, true, false], 0, [1, 4, 5]) : Exec _) := by
  refine ⟨?_, by decide, ?_⟩
  · exact (FixedObj.plain (m0 := exampleFixedMem) (size := 24) (align := 8) (s := 64)
      (buf := 128) (n := 2) exampleFixedMem_wf (by decide) (r := ⟨136, 8, false⟩) rfl (by decide)
      ⟨3, rfl⟩ (by decide) (by decide) (by decide) (by decide) (by
        intro q h1 h2
        unfold exampleFixedMem
        simp; omega)).1
  · intro B hB
    simp only [List.mem_cons, List.not_mem_nil, or_false] at hB
    rcases hB with rfl | rfl <;> decide +kernel

end Verif
