import Verif.Unwind.CollectMap
import Verif.Props.VectorMapDrops

/-! What a panicking iterator does to a vector map being built. -/

set_option autoImplicit false

namespace Verif
open Spec

variable {σ K V : Type}

/-- C108, vector maps: if the iterator panics after yielding `items`, each key and value it yielded
is dropped exactly once and memory is as it was, whatever the comparator and `==` answer and even if
they panic themselves.  `m.dropped` gains the pairs that go with the vector and `loc` lists the keys
and values that went out of scope outside of it. -/
theorem C108_vector_map_collect (R : RawAlloc (K × V)) (F : KeyFns σ K) (ndK ndV : Bool)
    (m0 : Mem (K × V)) (s0 : σ) (items : List (K × V)) :
    ∃ (m : Mem (K × V)) (loc D : List (K ⊕ V)) (ps : List (K × V)),
      VMap.collectP (defaultAllocator R) F (ndK || ndV) items m0 s0 = .ok (m, loc) ∧
      m.live = m0.live ∧ m.dropped = m0.dropped ++ ps ∧
      (loc ++ contents ps).filter (hasDrop ndK ndV) = D.filter (hasDrop ndK ndV) ∧
      D.Perm (items.flatMap fun p => [Sum.inl p.1, Sum.inr p.2]) := by
  have hi1 : MInv m0.live m0 Vec.new ([] : List (K × V)) := ⟨0, VInv.new defaultFits m0⟩
  obtain ⟨r, s, m, l, ps, e1, e2, e3⟩ := hi1.insertAllD R F (ndK || ndV) items s0
  have h0 : contents ([] : List (K × V)) = [] := rfl
  rw [h0, List.nil_append] at e3
  rcases e3 with ⟨v, xs, rfl, g1, g2⟩ | ⟨rfl, g1, g2⟩
  · obtain ⟨m2, f1, _, f2, f3⟩ := g1.clearE (R := R) (ndK || ndV)
    refine ⟨m2, l, l ++ contents (ps ++ xs), if (ndK || ndV) then ps ++ xs else [],
      by simp [VMap.collectP, VMap.fromIterD, e1, f1], f2, ?_, filter_hasDrop l _, ?_⟩
    · rw [f3, e2]; cases (ndK || ndV) <;> simp
    · rw [contents_append]
      refine .trans ?_ g2.symm
      rw [← List.append_assoc]
      exact List.perm_append_comm
  · exact ⟨m, l, l ++ contents ps, if (ndK || ndV) then ps else [],
      by simp [VMap.collectP, VMap.fromIterD, e1], g1, e2, filter_hasDrop l ps, g2.symm⟩

/-- Non-vacuity: pairs with a key given twice, the comparator returning and panicking. -/
example : (do
    let (m, l) ← VMap.collectP (defaultAllocator RawAlloc.bump) inTurns true
      [(5, 50), (5, 51)] Mem.empty false
    .ok (l, m.dropped, (List.range 3).map fun b => (m.live b).isSome)) =
      (.ok ([.inl 5, .inr 50], [(5, 51)], [false, false, false]) :
        Exec (List (Nat ⊕ Nat) × List (Nat × Nat) × List Bool)) ∧ (do
    let (m, l) ← VMap.collectP (defaultAllocator RawAlloc.bump) everyFourth true
      [(5, 50), (5, 51), (5, 52), (7, 70)] Mem.empty 0
    .ok (l, m.dropped)) =
      (.ok ([.inl 5, .inr 50, .inr 52, .inl 5, .inl 7, .inr 70], [(5, 51)]) :
        Exec (List (Nat ⊕ Nat) × List (Nat × Nat))) := by
  exact ⟨by decide +kernel, by decide +kernel⟩

end Verif
