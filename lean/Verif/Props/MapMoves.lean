import Verif.VectorMap.Moves
import Verif.Props.VectorMap
import Mathlib.Data.Nat.Log

/-!
# C146: what keeping a vector map sorted costs

The memory counts the elements moved (`copied`) and the blocks asked for (`allocs`).
-/

set_option autoImplicit false

namespace Verif
open Spec

variable {K V : Type}

/-- C146, single calls.  After any history of calls on a new map, every further call moves exactly
the pairs with greater keys if it puts a pair in or takes one out, all of them in addition if there
is no room for a new one, and otherwise none; it asks for a block only if there is no room. -/
theorem C146_vector_map_moves (R : RawAlloc (K × V)) (lt eq : K → K → Bool) (hw : StrictWeak lt)
    (hc : Consistent lt eq) (nd : Bool) (m0 : Mem (K × V)) (ops : List (MapOp K V))
    (op : MapOp K V) :
    ∃ outs v m s cap o v' m', VMap.run (defaultAllocator R) lt eq nd ops Vec.new m0 =
        .ok (outs, v, m) ∧ v.asSlice m = .ok s ∧ v.capacity = .ok cap ∧
      VMap.step (defaultAllocator R) lt eq nd op v m = .ok (o, v', m') ∧
      m'.copied = m.copied + op.moves lt eq s cap ∧
      m'.allocs = m.allocs + op.asks eq s cap := by
  obtain ⟨v, m, xs, e, ⟨cap, h⟩, hs, _, hd⟩ := MInv.run (R := R) hw hc nd ops
    (⟨0, VInv.new defaultFits m0⟩ : MInv m0.live m0 Vec.new ([] : List (K × V)))
    List.Pairwise.nil List.Pairwise.nil
  obtain ⟨v', m', ys, e', _⟩ := MInv.step (R := R) hw hc nd op ⟨cap, h⟩ hs hd
  obtain ⟨h1, h2⟩ := h.mapStep_moves hw hc nd op hs hd e'
  exact ⟨_, v, m, xs, cap, _, v', m', e, h.slice, h.capacity, e', h1, h2⟩

/-- C146, bulk construction from a slice or an array: room for all pairs is asked for once, and the
pairs moved are, for each new key, those of the different keys before it that are greater. -/
theorem C146_from_pairs_moves (R : RawAlloc (K × V)) (lt eq : K → K → Bool) (hw : StrictWeak lt)
    (hc : Consistent lt eq) (m0 : Mem (K × V)) (ps : List (K × V)) :
    ∃ v m, VMap.fromPairs (defaultAllocator R) lt eq ps m0 = .ok (v, m) ∧
      m.copied = m0.copied + displaced lt eq [] ps ∧
      m.allocs = m0.allocs + if ps = [] then 0 else 1 := by
  obtain ⟨v1, m1, e1, h1, ef⟩ :=
    (VInv.new defaultFits m0).reserve_any (defaultAllocator_lawful R) ps.length
  have e1' : Vec.withCapacity (defaultAllocator R) ps.length m0 = .ok (v1, m1) := e1
  obtain ⟨v, m, e, c, a⟩ := insertAll_room (R := R) hw hc ps h1 List.Pairwise.nil
    List.Pairwise.nil (seen := []) (.refl _) (by simp)
  refine ⟨v, m, by simp [VMap.fromPairs, e1', e], ?_, ?_⟩
  · rw [c, ef.copied]; simp
  · rw [a, ef.allocs]; simp

/-- C146, collecting from an iterator: growing adds fewer moves than twice the entries of the map
and at most `log₂ n + 2` blocks. -/
theorem C146_from_iter_moves (R : RawAlloc (K × V)) (lt eq : K → K → Bool) (hw : StrictWeak lt)
    (hc : Consistent lt eq) (m0 : Mem (K × V)) (ps : List (K × V)) :
    ∃ v m n, VMap.fromIter (defaultAllocator R) lt eq ps m0 = .ok (v, m) ∧ v.len = .ok n ∧
      m0.copied + displaced lt eq [] ps ≤ m.copied ∧
      m.copied ≤ m0.copied + displaced lt eq [] ps + 2 * n ∧
      m.allocs ≤ m0.allocs + Nat.log 2 n + 2 := by
  obtain ⟨v, m, ys, cap, g, a, e, h, hG, hcp, hal⟩ := insertAll_grown (R := R) hw hc ps
    (VInv.new defaultFits m0) List.Pairwise.nil List.Pairwise.nil (seen := []) (.refl _)
    (g := 0) (a := 0) (.inl ⟨rfl, rfl, rfl, rfl⟩)
  refine ⟨v, m, ys.length, e, h.len, by omega, ?_, ?_⟩
  · rcases hG with ⟨_, _, _, _⟩ | ⟨_, _, _, _⟩ <;> omega
  · rcases hG with ⟨_, _, _, _⟩ | ⟨h1, h2, h3, h4⟩
    · omega
    · rw [h2] at h4
      have h5 : a - 1 ≤ Nat.log 2 (2 * ys.length) :=
        (Nat.le_log_iff_pow_le (by omega) (by omega)).2 (Nat.le_of_lt h4)
      have h6 : Nat.log 2 (2 * ys.length) = Nat.log 2 ys.length + 1 := by
        rw [Nat.mul_comm, Nat.log_mul_base (by omega) (by omega)]
      omega

/-- C146: from pairs whose keys increase a map is built without moving any, and from pairs whose
keys decrease by moving every pair past every other. -/
theorem C146_sorted_input (R : RawAlloc (K × V)) (lt eq : K → K → Bool) (hw : StrictWeak lt)
    (hc : Consistent lt eq) (m0 : Mem (K × V)) (ps : List (K × V)) :
    ∃ v m, VMap.fromPairs (defaultAllocator R) lt eq ps m0 = .ok (v, m) ∧
      ((ps.Pairwise fun p q => lt p.1 q.1 = true) → m.copied = m0.copied) ∧
      ((ps.Pairwise fun p q => lt q.1 p.1 = true) →
        2 * m.copied = 2 * m0.copied + ps.length * (ps.length - 1)) := by
  obtain ⟨v, m, e, c, _⟩ := C146_from_pairs_moves R lt eq hw hc m0 ps
  refine ⟨v, m, e, ?_, ?_⟩
  · intro h
    rw [c, displaced_increasing hw ps h (by simp)]
    rfl
  · intro h
    have := displaced_decreasing hw hc ps (seen := []) h (by simp)
    simp only [List.length_nil, Nat.mul_zero, Nat.zero_add] at this
    omega

/-- Five pairs, one key twice: 4 goes before 5, 7 and 9, and 1 before all four. -/
example :
    displaced (fun a b : Nat => decide (a < b)) (fun a b => a == b) []
      [(5, 0), (7, 0), (9, 0), (4, 0), (7, 1), (1, 0)] = 7 ∧
    (do
      let (_, m) ← VMap.fromPairs (defaultAllocator RawAlloc.bump) (fun a b : Nat => decide (a < b))
        (fun a b => a == b) [(5, 0), (7, 0), (9, 0), (4, 0), (7, 1), (1, 0)]
        (Mem.empty : Mem (Nat × Nat))
      let (_, m') ← VMap.fromIter (defaultAllocator RawAlloc.bump) (fun a b : Nat => decide (a < b))
        (fun a b => a == b) [(5, 0), (7, 0), (9, 0), (4, 0), (7, 1), (1, 0)]
        (Mem.empty : Mem (Nat × Nat))
      .ok (m.copied, m.allocs, m'.copied, m'.allocs)) =
      (.ok (7, 1, 14, 4) : Exec (Nat × Nat × Nat × Nat)) := by
  decide +kernel

/-- Inserting 6 into a full map of four moves all of them, and the two greater ones again. -/
example : (do
    let (_, v, m) ← VMap.run (defaultAllocator RawAlloc.bump) (fun a b : Nat => decide (a < b))
      (fun a b => a == b) true [.insert 5 0, .insert 2 0, .insert 9 0, .insert 7 0] Vec.new
      (Mem.empty : Mem (Nat × Nat))
    let (_, _, m') ← VMap.step (defaultAllocator RawAlloc.bump) (fun a b : Nat => decide (a < b))
      (fun a b => a == b) true (.insert 6 0) v m
    .ok (m'.copied - m.copied, m'.allocs - m.allocs)) = (.ok (6, 1) : Exec (Nat × Nat)) ∧
    (MapOp.insert 6 0).moves (fun a b : Nat => decide (a < b)) (fun a b => a == b)
      [(2, 0), (5, 0), (7, 0), (9, 0)] 4 = 6 := by
  decide +kernel

end Verif
