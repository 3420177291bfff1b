import Verif.Machine.VectorMap
import Verif.Props.Machine
import Verif.Props.VectorMap

/-!
# Property C155: `VectorMap` on a 64-bit machine

`size` and `align` are the layout of a pair of a key and a value, `B` the build mode.
-/

set_option autoImplicit false

namespace Verif
open Spec

variable {K V : Type}

theorem fresh_with_room {α : Type} (R : RawAlloc α) (room : Nat) (m0 : Mem α) : ∃ v1 m1,
    Vec.new.reserve (defaultAllocator R) room m0 = .ok (v1, m1) ∧
    VInv (fun _ => False) defaultFits m0.live m1 v1 ([] : List α) room := by
  rcases Nat.eq_zero_or_pos room with rfl | h
  · exact ⟨Vec.new, m0, rfl, VInv.new defaultFits m0⟩
  · obtain ⟨v1, m1, b, blk, fr, he, hi, _⟩ :=
      (VInv.new defaultFits m0).reserve (defaultAllocator_lawful R) h
    exact ⟨v1, m1, he, by simpa using hi.inv⟩

/-- C155.  A map created with `with_capacity(room)` (`new` for `room = 0`), compiled with or without
overflow checks, on which any history of calls is made: if arrays of `room` and of twice the largest
number of entries can exist in the address space, the calls return what they return on the finite
map, and the slice lists its entries with strictly increasing keys.  Dropping the map afterwards drops
these entries and leaves no memory behind. -/
theorem C155_machine_vector_map (B : Build) {size align : Nat} (hT : TypeLayout size align)
    (R : RawAlloc (K × V)) (lt eq : K → K → Bool) (hw : StrictWeak lt) (hc : Consistent lt eq)
    (nd : Bool) (m0 : Mem (K × V)) (room : Nat) (ops : List (MapOp K V))
    (hroom : Representable size align room)
    (hfit : Representable size align (2 * MapOp.peak eq ops [])) :
    ∃ v m xs, VMap.runFromM B (byteAllocator B size align R.total) lt eq nd room ops m0 =
        .ok ((MapOp.run eq ops []).1, v, m) ∧
      v.asSlice m = .ok xs ∧ xs.Perm (MapOp.run eq ops []).2 ∧ Increasing lt xs ∧
      ∃ v' m', v.clear (byteAllocator B size align R.total) nd m = .ok (v', m') ∧
        m'.live = m0.live ∧ m'.dropped = m.dropped ++ (if nd then xs else []) := by
  obtain ⟨N, hNd⟩ : ∃ N, N = max room (2 * MapOp.peak eq ops []) := ⟨_, rfl⟩
  have hN : Representable size align N := by
    rcases Nat.le_total room (2 * MapOp.peak eq ops []) with h | h
    · rwa [hNd, Nat.max_eq_right h]
    · rwa [hNd, Nat.max_eq_left h]
  have hr : ∀ c, c ≤ N → Representable size align c :=
    fun c hcN => Nat.le_trans (Nat.mul_le_mul_right _ hcN) hN
  have ha : ∀ c, 0 < c → c ≤ N → ∀ m : Mem (K × V),
      (byteAllocator B size align R.total).alloc c m = (defaultAllocator R).alloc c m :=
    fun c h0 hcN m => byteAllocator_alloc B hT R h0 (hr c hcN) m
  have hd : ∀ c, c ≤ N → ∀ (p : Ptr) (m : Mem (K × V)),
      (byteAllocator B size align R.total).dealloc p c m = (defaultAllocator R).dealloc p c m :=
    fun c hcN p m => byteAllocator_dealloc B hT R.total R (hr c hcN) p m
  have hlt := hT.rep_lt hN
  obtain ⟨v1, m1, he1, hi1⟩ := fresh_with_room R room m0
  obtain ⟨hrun, hend⟩ := mapRunM_agree B hlt ha hd hw hc nd ops hi1 List.Pairwise.nil List.Pairwise.nil
    (.refl _) (by omega) (by omega)
  obtain ⟨v, m, ys, he, ⟨cap, hi⟩, hs, hp, hdis⟩ :=
    MInv.run (R := R) hw hc nd ops ⟨room, hi1⟩ List.Pairwise.nil List.Pairwise.nil
  obtain ⟨xs', cap', hi', hcap'⟩ := hend _ _ _ he
  obtain ⟨m2, hcl, _, hw2, _, _, hef⟩ := hi.clear (defaultAllocator_lawful R) nd
  refine ⟨v, m, ys, ?_, hi.slice, hp, hs.increasing hc hdis, ⟨.null, .null, .null⟩, m2, ?_,
    funext fun p => hw2 p id, hef.dropped⟩
  case refine_2 => rw [clear_agree (P := fun c => c ≤ N) hd nd hi' hcap', hcl]
  have hcap : Vec.withCapacityM B (byteAllocator B size align R.total) room m0 =
      Vec.new.reserve (defaultAllocator R) room m0 :=
    reserveM_agree B (P := fun c => c ≤ N) (fun c hcN => by omega) ha hd (len := 0) (cap := 0) rfl
      rfl (Nat.zero_le _) (by omega)
  simp only [VMap.runFromM, hcap, he1, Exec.ok_bind]
  rw [hrun]
  exact he

/-- C155 without the limit, in a debug build: the calls return what they return on the finite map,
or one of them panics; so does dropping the map.  There is never undefined behaviour. -/
theorem C155_debug_vector_map {size : Nat} (hsize : 0 < size) (align : Nat)
    (R : RawAlloc (K × V)) (lt eq : K → K → Bool) (hw : StrictWeak lt) (hc : Consistent lt eq)
    (nd : Bool) (m0 : Mem (K × V)) (room : Nat) (ops : List (MapOp K V)) :
    VMap.runFromM .debug (byteAllocator .debug size align R.total) lt eq nd room ops m0 =
      .error .panic ∨
    ∃ v m xs, VMap.runFromM .debug (byteAllocator .debug size align R.total) lt eq nd room ops m0 =
        .ok ((MapOp.run eq ops []).1, v, m) ∧
      v.asSlice m = .ok xs ∧ xs.Perm (MapOp.run eq ops []).2 ∧ Increasing lt xs ∧
      (v.clear (byteAllocator .debug size align R.total) nd m = .error .panic ∨
        ∃ v' m', v.clear (byteAllocator .debug size align R.total) nd m = .ok (v', m') ∧
          m'.live = m0.live ∧ m'.dropped = m.dropped ++ (if nd then xs else [])) := by
  obtain ⟨v1, m1, he1, hi1⟩ := fresh_with_room R room m0
  obtain ⟨v, m, ys, he, ⟨cap, hi⟩, hs, hp, hdis⟩ :=
    MInv.run (R := R) hw hc nd ops ⟨room, hi1⟩ List.Pairwise.nil List.Pairwise.nil
  have h1 : OrPanic
      (VMap.runFromM .debug (byteAllocator .debug size align R.total) lt eq nd room ops m0)
      (Vec.new.reserve (defaultAllocator R) room m0 >>= fun r =>
        VMap.run (defaultAllocator R) lt eq nd ops r.1 r.2) :=
    OrPanic.bind (reserveM_orPanic hsize align R room Vec.new m0) fun r _ =>
      mapRunM_cautious (byteAlloc_orPanic hsize align R) (byteDealloc_orPanic hsize align R) nd ops
        r.1 r.2
  rcases h1 with h1 | h1
  · refine .inr ⟨v, m, ys, ?_, hi.slice, hp, hs.increasing hc hdis, ?_⟩
    · rw [h1, he1]
      exact he
    · rcases clear_cautious (fun p n m => byteDealloc_orPanic hsize align R p n m) nd v m with h2 | h2
      · obtain ⟨m2, hcl, _, hw2, _, _, hef⟩ := hi.clear (defaultAllocator_lawful R) nd
        exact .inr ⟨⟨.null, .null, .null⟩, m2, h2.trans hcl, funext fun p => hw2 p id, hef.dropped⟩
      · exact .inl h2
  · exact .inl h1

/-- C84 fails for vector maps in release builds: for every pair type of at least two bytes there is
a capacity for which creating a map with that capacity has undefined behaviour instead of
panicking. -/
theorem C84_release_map_with_capacity_ub {size align : Nat} (hT : TypeLayout size align)
    (h2 : 2 ≤ size) (hs : size ≤ 2 ^ 62) (R : RawAlloc (K × V)) (lt eq : K → K → Bool) (nd : Bool)
    (m : Mem (K × V)) :
    ∃ room < 2 ^ 64, ¬ Representable size align room ∧ ∀ ops : List (MapOp K V),
      VMap.runFromM .release (byteAllocator .release size align R.total) lt eq nd room ops m =
        .error .ub := by
  obtain ⟨n, hn, hr, _, hub⟩ := C84_release_with_capacity_ub hT h2 hs R m
  exact ⟨n, hn, hr, fun ops => by simp only [VMap.runFromM, hub, Exec.error_bind]⟩

/-- Pairs of `u64`. -/
theorem pair_layout : TypeLayout 16 8 := ⟨by omega, ⟨3, by omega, rfl⟩, ⟨2, rfl⟩, by omega⟩

/-- A history with at most two entries at a time. -/
abbrev machineMapOps : List (MapOp Nat Nat) :=
  [.insert 5 50, .insert 3 30, .insert 5 51, .remove 3, .entry 1 (· + 1) 10, .get 5]

example : 2 * MapOp.peak (· == ·) machineMapOps [] = 4 ∧ Representable 16 8 4 ∧
    Representable 16 8 3 :=
  ⟨by decide +kernel, by unfold Representable; decide, by unfold Representable; decide⟩

example : (do
    let (_, v, m) ← VMap.runFromM .release (byteAllocator .release 16 8 RawAlloc.bump.total)
      (fun a b => decide (a < b)) (· == ·) true 1 machineMapOps Mem.empty
    v.asSlice m) = .ok [(1, 10), (5, 51)] := by decide +kernel

/-- A capacity that cannot exist: a panic in a debug build. -/
example : (VMap.runFromM .debug (byteAllocator .debug 16 8 RawAlloc.bump.total)
    (fun a b => decide (a < b)) (· == ·) true (2 ^ 60) machineMapOps Mem.empty).map (fun _ => ()) =
  .error .panic := by decide +kernel

/-- The same request in a release build, plus one: sixteen bytes are allocated. -/
example : (VMap.runFromM .release (byteAllocator .release 16 8 RawAlloc.bump.total)
    (fun a b => decide (a < b)) (· == ·) true (2 ^ 60 + 1) machineMapOps Mem.empty).map
      (fun _ => ()) = .error .ub := by decide +kernel

end Verif
