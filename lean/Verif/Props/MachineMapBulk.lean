import Verif.Machine.MapBulk
import Verif.Props.MachineMap
import Verif.Props.MachineMapExact

/-!
# Property C163: building a vector map from pairs, on a 64-bit machine

`size` and `align` are the layout of a pair of a key and a value, `B` the build mode.
-/

set_option autoImplicit false

namespace Verif
open Spec

variable {K V : Type}

/-- Inserting pairs one after the other into an empty map with the capacity `room`, if all capacities
can exist. -/
theorem insertAllM_ok (B : Build) {size align : Nat} (hT : TypeLayout size align)
    (R : RawAlloc (K × V)) {lt eq : K → K → Bool} (hw : StrictWeak lt) (hc : Consistent lt eq)
    (nd : Bool) {w : World (K × V)} {m1 : Mem (K × V)} {v1 : Vec} {room : Nat} (ps : List (K × V))
    (hi1 : VInv (fun _ => False) defaultFits w m1 v1 [] room) (hr : Representable size align room)
    (hall : ∀ c ∈ MapOp.caps eq (insertOps ps) [] room, Representable size align c) :
    ∃ v m xs m', VMap.insertAllM B (byteAllocator B size align R.total) lt eq ps v1 m1 = .ok (v, m) ∧
      VMap.insertAll (defaultAllocator R) lt eq ps v1 m1 = .ok (v, m) ∧ v.asSlice m = .ok xs ∧
      v.capacity = .ok ((MapOp.caps eq (insertOps ps) [] room).getLastD room) ∧
      xs.length = keyCount eq ps ∧
      v.clear (byteAllocator B size align R.total) nd m = .ok (Vec.new, m') ∧
      m'.live = w ∧ m'.dropped = m.dropped ++ if nd then xs else [] := by
  have hrun := (mapRunM_exact B hT R hw hc nd (insertOps ps) hi1 .nil .nil hr).1 hall
  obtain ⟨v, m, ys, he, ⟨cap, hi⟩, hs, hp, hdis⟩ :=
    MInv.run (R := R) hw hc nd (insertOps ps) ⟨room, hi1⟩ .nil .nil
  have hcap := mapRun_capacity R hw hc nd (insertOps ps) hi1 .nil .nil he
  have h1 : cap = (MapOp.caps eq (insertOps ps) [] room).getLastD room := by
    have := hi.capacity.symm.trans hcap
    cases this
    rfl
  have hrep : Representable size align cap := by
    rw [h1]
    cases hcs : MapOp.caps eq (insertOps ps) [] room with
    | nil => exact hr
    | cons c cs =>
      rw [hcs] at hall
      rw [List.getLastD_cons]
      rcases List.eq_nil_or_concat cs with rfl | ⟨ds, d, rfl⟩
      · exact hall c (List.mem_cons_self ..)
      · exact hall _ (by simp)
  obtain ⟨m2, hcl, _, hw2, _, _, hef⟩ := hi.clear (defaultAllocator_lawful R) nd
  refine ⟨v, m, ys, m2, ?_, ?_, hi.slice, hcap, ?_, ?_, funext fun p => hw2 p id, hef.dropped⟩
  · rw [← insertAllM_run B _ lt eq nd, hrun, he]; rfl
  · rw [← insertAll_run _ lt eq nd, he]; rfl
  · rw [hp.length_eq, insertOps_length (hc.equiv hw), newKeys_nil]
    simp
  · exact (clear_agree (P := Representable size align)
      (fun c hc p m => byteAllocator_dealloc B hT R.total R hc p m) nd hi hrep).trans hcl

/-- C163 for slices and arrays of pairs. Rust's slices have fewer than 2^63 bytes; from each of them,
in either build, a map is made without a panic and without growing: its capacity is the number of
pairs given. The keys are strictly increasing and are those given, `get` returns the value given last,
and dropping the map leaves no memory behind. -/
theorem C163_from_slice (B : Build) {size align : Nat} (hT : TypeLayout size align)
    (R : RawAlloc (K × V)) (lt eq : K → K → Bool) (hw : StrictWeak lt) (hc : Consistent lt eq)
    (nd : Bool) (m0 : Mem (K × V)) (ps : List (K × V)) (hps : ps.length * size < 2 ^ 63) :
    ∃ v m xs m', VMap.fromPairsM B (byteAllocator B size align R.total) lt eq ps m0 = .ok (v, m) ∧
      v.asSlice m = .ok xs ∧ v.capacity = .ok ps.length ∧
      Increasing lt xs ∧ xs.length = keyCount eq ps ∧ (∀ p ∈ xs, ∃ q ∈ ps, eq q.1 p.1 = true) ∧
      (∀ k, VMap.get lt eq k v m = .ok (lastBinding eq ps k)) ∧
      v.clear (byteAllocator B size align R.total) nd m = .ok (Vec.new, m') ∧
      m'.live = m0.live ∧ m'.dropped = m.dropped ++ if nd then xs else [] := by
  have zero : Representable size align 0 := by simp [Representable]
  have hr : Representable size align ps.length := by
    obtain ⟨k, hk, ha⟩ := hT.pow
    obtain ⟨a, h1⟩ := Dvd.dvd.mul_left hT.dvd ps.length
    have h2 : 2 ^ 63 = align * 2 ^ (63 - k) := by rw [ha, ← Nat.pow_add]; congr 1; omega
    unfold Representable
    rw [h1] at hps ⊢
    rw [h2] at hps ⊢
    have h3 : a < 2 ^ (63 - k) := Nat.lt_of_mul_lt_mul_left hps
    have h4 := Nat.mul_le_mul_left align (show a + 1 ≤ 2 ^ (63 - k) from h3)
    rw [Nat.mul_add, Nat.mul_one] at h4
    omega
  obtain ⟨v1, m1, he1, hi1⟩ := fresh_with_room R ps.length m0
  have hcap : Vec.withCapacityM B (byteAllocator B size align R.total) ps.length m0 =
      Vec.new.reserve (defaultAllocator R) ps.length m0 :=
    reserveM_agree B (P := Representable size align) (fun c hc => hT.rep_lt hc)
      (fun c h0 hc m => byteAllocator_alloc B hT R h0 hc m)
      (fun c hc p m => byteAllocator_dealloc B hT R.total R hc p m) (len := 0) (cap := 0) rfl
      rfl zero (by rwa [Nat.zero_add])
  have hroom := insertOps_caps_room eq ps.length ps [] (by simp)
  obtain ⟨v, m, xs, m', g1, g2, g3, g4, g5, g6, g7⟩ := insertAllM_ok B hT R hw hc nd ps hi1 hr
    (fun c hm => by rw [hroom c hm]; exact hr)
  obtain ⟨v2, m2, xs2, k1, k2, k3, k4, k5⟩ := C25_bulk_construction R lt eq hw hc m0 ps _ (.inl rfl)
  have h1 : Vec.withCapacity (defaultAllocator R) ps.length m0 = .ok (v1, m1) := he1
  simp only [VMap.fromPairs, h1, Exec.ok_bind, g2] at k1
  cases k1
  rw [g3] at k2
  cases k2
  refine ⟨v, m, xs, m', by simp only [VMap.fromPairsM, hcap, he1, Exec.ok_bind, g1], g3, ?_, k3, g5,
    k4, k5, g6, g7⟩
  rw [g4]
  cases hcs : MapOp.caps eq (insertOps ps) [] ps.length with
  | nil => rfl
  | cons c cs =>
    rw [hcs] at hroom
    rw [List.getLastD_cons]
    rcases List.eq_nil_or_concat cs with rfl | ⟨ds, d, rfl⟩
    · rw [← hroom c (List.mem_cons_self ..)]; rfl
    · refine congrArg Except.ok ?_
      rw [hroom d (by simp)]
      simp

/-- C163 for iterators, whose items are arbitrarily many. A map is made from them unless the least
power of two that is at least the number of different keys is a capacity that cannot exist; then, and
only then, collecting panics. -/
theorem C163_from_iterator (B : Build) {size align : Nat} (hT : TypeLayout size align)
    (R : RawAlloc (K × V)) (lt eq : K → K → Bool) (hw : StrictWeak lt) (hc : Consistent lt eq)
    (nd : Bool) (m0 : Mem (K × V)) (ps : List (K × V)) :
    (¬ Representable size align (2 ^ Nat.clog 2 (keyCount eq ps)) →
      VMap.fromIterM B (byteAllocator B size align R.total) lt eq ps m0 = .error .panic) ∧
    (Representable size align (2 ^ Nat.clog 2 (keyCount eq ps)) →
      ∃ v m xs m', VMap.fromIterM B (byteAllocator B size align R.total) lt eq ps m0 = .ok (v, m) ∧
        v.asSlice m = .ok xs ∧ Increasing lt xs ∧ xs.length = keyCount eq ps ∧
        (∀ p ∈ xs, ∃ q ∈ ps, eq q.1 p.1 = true) ∧
        (∀ k, VMap.get lt eq k v m = .ok (lastBinding eq ps k)) ∧
        v.clear (byteAllocator B size align R.total) nd m = .ok (Vec.new, m') ∧
        m'.live = m0.live ∧ m'.dropped = m.dropped ++ if nd then xs else []) := by
  have zero : Representable size align 0 := by simp [Representable]
  have hi1 := VInv.new (α := K × V) defaultFits m0
  have hlen : (MapOp.run eq (insertOps ps) []).2.length = keyCount eq ps := by
    rw [insertOps_length (hc.equiv hw), newKeys_nil]; simp
  obtain ⟨c1, c2⟩ := insertOps_caps eq ps []
  rw [hlen] at c1 c2
  have hle : roomFor (keyCount eq ps) ≤ 2 ^ Nat.clog 2 (keyCount eq ps) := by
    unfold roomFor
    split_ifs
    · exact Nat.zero_le _
    · exact Nat.le_refl _
  constructor
  · intro hn
    have hne : keyCount eq ps ≠ 0 := by
      intro h0
      rw [h0] at hn
      refine hn ?_
      obtain ⟨k, hk, ha⟩ := hT.pow
      obtain ⟨a, h1⟩ := hT.dvd
      have h2 : 2 ^ 63 = align * 2 ^ (63 - k) := by rw [ha, ← Nat.pow_add]; congr 1; omega
      have hs := hT.small
      rw [Nat.clog_zero_right, Nat.pow_zero]
      unfold Representable
      rw [h1, h2] at hs
      rw [h1, h2, Nat.one_mul]
      have h3 : a < 2 ^ (63 - k) := Nat.lt_of_mul_lt_mul_left hs
      have h4 := Nat.mul_le_mul_left align (show a + 1 ≤ 2 ^ (63 - k) from h3)
      rw [Nat.mul_add, Nat.mul_one] at h4
      omega
    have hps : ps ≠ [] := by rintro rfl; exact hne rfl
    have h3 := (mapRunM_exact B hT R hw hc nd (insertOps ps) hi1 .nil .nil zero).2
      ⟨_, c2 hps, by rwa [roomFor, if_neg hne]⟩
    have h4 := insertAllM_run B (byteAllocator B size align R.total) lt eq nd ps Vec.new m0
    rw [VMap.fromIterM, ← h4]
    have h5 : VMap.runM B (byteAllocator B size align R.total) lt eq nd (insertOps ps) Vec.new m0 =
      .error .panic := h3
    rw [h5]
    rfl
  · intro hr
    obtain ⟨v, m, xs, m', g1, g2, g3, _, g5, g6, g7⟩ := insertAllM_ok B hT R hw hc nd ps hi1 zero
      (fun c hm => Nat.le_trans (Nat.mul_le_mul_right _ (Nat.le_trans (c1 c hm) hle)) hr)
    obtain ⟨v2, m2, xs2, k1, k2, k3, k4, k5⟩ := C25_bulk_construction R lt eq hw hc m0 ps _ (.inr rfl)
    rw [VMap.fromIter, show VMap.insertAll (defaultAllocator R) lt eq ps Vec.new m0 = _ from g2] at k1
    cases k1
    rw [g3] at k2
    cases k2
    exact ⟨v, m, xs, m', g1, g3, k3, g5, k4, k5, g6, g7⟩

/-! ## Instances -/

/-- Four pairs with three different keys, collected and from a slice, in a release build. -/
example : (do
    let (v, m) ← VMap.fromPairsM .release (byteAllocator .release 16 8 RawAlloc.bump.total)
      (fun a b : Nat => decide (a < b)) (· == ·) [(3, 'a'), (1, 'b'), (3, 'c'), (2, 'd')] Mem.empty
    let c ← v.capacity
    let xs ← v.asSlice m
    let (w, m) ← VMap.fromIterM .release (byteAllocator .release 16 8 RawAlloc.bump.total)
      (fun a b : Nat => decide (a < b)) (· == ·) [(3, 'a'), (1, 'b'), (3, 'c')] m
    let d ← w.capacity
    .ok (c, xs, d)) = (.ok (4, [(1, 'b'), (2, 'd'), (3, 'c')], 2) : Exec _) := by decide +kernel

/-- Pairs of 2^60 bytes. A slice has at most seven of them, and all seven can be put into a map;
an iterator may have five different ones, for which no map can be made. -/
example : [1, 2, 3, 4, 5, 6, 7].length * 2 ^ 60 < 2 ^ 63 ∧
    ¬ Representable (2 ^ 60) 8
      (2 ^ Nat.clog 2 (keyCount (· == ·) [(1, 'a'), (2, 'b'), (3, 'c'), (4, 'd'), (1, 'e'), (5, 'f')])) ∧
    Representable (2 ^ 60) 8
      (2 ^ Nat.clog 2 (keyCount (· == ·) [(1, 'a'), (2, 'b'), (3, 'c'), (4, 'd'), (1, 'e')])) := by
  have h1 : keyCount (· == ·) [(1, 'a'), (2, 'b'), (3, 'c'), (4, 'd'), (1, 'e'), (5, 'f')] = 5 := by
    decide
  have h2 : keyCount (· == ·) [(1, 'a'), (2, 'b'), (3, 'c'), (4, 'd'), (1, 'e')] = 4 := by decide
  have h3 : Nat.clog 2 5 = 3 := by decide +kernel
  have h4 : Nat.clog 2 4 = 2 := by decide +kernel
  rw [h1, h2, h3, h4]
  exact ⟨by simp, by simp [Representable], by simp [Representable]⟩

example : (VMap.fromIterM .release (byteAllocator .release (2 ^ 60) 8 RawAlloc.bump.total)
      (fun a b : Nat => decide (a < b)) (· == ·)
      [(1, 'a'), (2, 'b'), (3, 'c'), (4, 'd'), (1, 'e'), (5, 'f')] Mem.empty).map (fun _ => ()) =
    .error .panic ∧
  (VMap.fromPairsM .release (byteAllocator .release (2 ^ 60) 8 RawAlloc.bump.total)
      (fun a b : Nat => decide (a < b)) (· == ·)
      [(1, 'a'), (2, 'b'), (3, 'c'), (4, 'd'), (1, 'e'), (5, 'f')] Mem.empty).map (fun _ => ()) =
    .ok () := by constructor <;> decide +kernel

end Verif
