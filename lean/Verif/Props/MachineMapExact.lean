import Verif.Machine.MapExact
import Verif.Props.MachineHanded
import Verif.Props.MachineModest

/-! Exactly which histories of calls on a vector map panic on a 64-bit machine. -/

set_option autoImplicit false

namespace Verif
open Spec

variable {K V : Type}

/-- C155 without the limit, made exact. A history on a map created with `with_capacity(room)` panics
if and only if `room`, or the capacity that the map needs after one of the calls, is that of an array
that cannot exist. With `C155_any_vector_map` this settles what every history does, except for a
`room` of at least 2^64 bytes in a release build, for which it is false
(`C84_release_map_with_capacity_ub`). -/
theorem C155_exact_vector_map (B : Build) {size align : Nat} (hT : TypeLayout size align)
    (R : RawAlloc (K × V)) (lt eq : K → K → Bool) (hw : StrictWeak lt) (hc : Consistent lt eq)
    (nd : Bool) (m0 : Mem (K × V)) (room : Nat) (hroom : B = .release → room * size < 2 ^ 64)
    (ops : List (MapOp K V)) :
    VMap.runFromM B (byteAllocator B size align R.total) lt eq nd room ops m0 = .error .panic ↔
      ∃ c ∈ room :: MapOp.caps eq ops [] room, ¬ Representable size align c := by
  have zero : Representable size align 0 := by simp [Representable]
  by_cases hr : Representable size align room
  case neg =>
    have h1 := withCapacityM_refuses B hT (m := m0)
      (fun _ hn hb m => byteAllocator_refuses B hT R.total hn hb m) hr hroom
    refine ⟨fun _ => ⟨room, List.mem_cons_self .., hr⟩, fun _ => ?_⟩
    simp only [VMap.runFromM, h1, Exec.error_bind]
  obtain ⟨v1, m1, he1, hi1⟩ := fresh_with_room R room m0
  have hcap : Vec.withCapacityM B (byteAllocator B size align R.total) room m0 =
      Vec.new.reserve (defaultAllocator R) room m0 :=
    reserveM_agree B (P := Representable size align) (fun c hc => hT.rep_lt hc)
      (fun c h0 hc m => byteAllocator_alloc B hT R h0 hc m)
      (fun c hc p m => byteAllocator_dealloc B hT R.total R hc p m) (len := 0) (cap := 0) rfl
      rfl zero (by rwa [Nat.zero_add])
  simp only [VMap.runFromM, hcap, he1, Exec.ok_bind]
  obtain ⟨g1, g2⟩ := mapRunM_exact B hT R hw hc nd ops hi1 List.Pairwise.nil List.Pairwise.nil hr
  obtain ⟨v, m, ys, he, _⟩ :=
    MInv.run (R := R) hw hc nd ops ⟨room, hi1⟩ List.Pairwise.nil List.Pairwise.nil
  constructor
  · intro hp
    apply Classical.byContradiction
    intro hno
    rw [g1 fun c hc => Classical.byContradiction fun hn => hno ⟨c, List.mem_cons_of_mem _ hc, hn⟩,
      he] at hp
    cases hp
  · rintro ⟨c, hm, hn⟩
    rcases List.mem_cons.1 hm with rfl | hm
    · exact absurd hr hn
    · exact g2 ⟨c, hm, hn⟩

/-- The same for a map that C++ built, with the entries `xs` in a buffer of capacity `cap`: a history
panics if and only if the capacity needed after one of the calls cannot exist. With
`C161_handed_vector_map` this settles what every history does. -/
theorem C161_exact_vector_map (B : Build) {size align : Nat} (hT : TypeLayout size align)
    (R : RawAlloc (K × V)) (lt eq : K → K → Bool) (hw : StrictWeak lt) (hc : Consistent lt eq)
    (nd : Bool) {m : Mem (K × V)} {v : Vec} {bs : List Nat} {cap : Nat} {xs : List (K × V)}
    (h : HandedVec m v bs cap xs) (hcap : Representable size align cap) (hs : Increasing lt xs)
    (ops : List (MapOp K V)) :
    VMap.runM B (byteAllocator B size align R.total) lt eq nd ops v m = .error .panic ↔
      ∃ c ∈ MapOp.caps eq ops xs cap, ¬ Representable size align c := by
  have h1 : WSorted lt xs := hs.imp fun {p q} hpq => by
    cases hqp : lt q.1 p.1 with
    | false => rfl
    | true => exact absurd (hw.trans _ _ _ hpq hqp) (by simp [hw.irrefl])
  have h2 : Distinct eq xs := hs.imp fun {p q} hpq => by
    cases hqp : eq p.1 q.1 with
    | false => rfl
    | true => exact absurd hpq (by simp [((hc p.1 q.1).1 hqp).1])
  obtain ⟨g1, g2⟩ := mapRunM_exact B hT R hw hc nd ops h.inv h1 h2 hcap
  obtain ⟨v', m', ys, m'', e1, _⟩ := C128_handed_vector_map R lt eq hw hc nd h hs ops
  constructor
  · intro hp
    apply Classical.byContradiction
    intro hno
    rw [g1 fun c hc => Classical.byContradiction fun hn => hno ⟨c, hc, hn⟩, e1] at hp
    cases hp
  · exact g2

/-! ## Instances -/

/-- Entries of 2^60 bytes: seven fit into the address space, so the map grows from one to two to four
and the fifth entry, for which it wants room for eight, is refused. Overwriting and removing entries
of a full map is not, and after a `clear` it starts again. -/
example :
    MapOp.caps (· == ·) [.insert 1 10, .insert 2 20, .insert 3 30, .insert 4 40, .insert 4 41,
      .remove 2, .insert 5 50, .insert 6 60] ([] : List (Nat × Nat)) 0 = [1, 2, 4, 4, 4, 4, 4, 8] ∧
    (Representable (2 ^ 60) 8 4 ∧ ¬ Representable (2 ^ 60) 8 8) ∧
    MapOp.caps (· == ·) [.insert 1 10, .insert 2 20, .clear, .insert 3 30] ([] : List (Nat × Nat)) 0 =
      [1, 2, 0, 1] := by
  refine ⟨by decide, ⟨by simp [Representable], by simp [Representable]⟩, by decide⟩

example : (VMap.runFromM .release (byteAllocator .release (2 ^ 60) 8 RawAlloc.bump.total)
    (fun a b => decide (a < b)) (· == ·) true 0
      [.insert 1 10, .insert 2 20, .insert 3 30, .insert 4 40, .insert 4 41, .remove 2,
        .insert 5 50] Mem.empty).map (fun r => r.1.length) = .ok 7 ∧
  (VMap.runFromM .release (byteAllocator .release (2 ^ 60) 8 RawAlloc.bump.total)
    (fun a b => decide (a < b)) (· == ·) true 0
      [.insert 1 10, .insert 2 20, .insert 3 30, .insert 4 40, .insert 4 41, .remove 2,
        .insert 5 50, .insert 6 60] (Mem.empty : Mem (Nat × Nat))).map (fun _ => ()) =
    .error .panic := by constructor <;> decide +kernel

example : TypeLayout (2 ^ 60) 8 := ⟨by omega, ⟨3, by omega, rfl⟩, by omega, by omega⟩

end Verif
