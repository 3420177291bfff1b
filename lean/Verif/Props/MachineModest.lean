import Verif.Machine.ModestMap
import Verif.Machine.ModestText
import Verif.Props.Machine
import Verif.Props.MachineCollect
import Verif.Props.MachineFixed
import Verif.Props.MachineMap
import Verif.Props.MachineText

/-! What vectors, fixed vectors and vector maps refuse in either build, as long as each request by itself
asks for less than half of the address space. -/

set_option autoImplicit false

namespace Verif
open Spec

variable {α K V : Type}

/-- In a debug build, and in a release build in which every single `reserve` and every slice given
asks for fewer than 2^63 bytes: as soon as a history needs a capacity that cannot exist, it panics;
with `C83_machine_vector`, which covers the histories for which all capacities can exist, this settles
what every such history does. Missing: release builds with larger requests, for which it is false
(`C84_release_with_capacity_ub`, `C84_release_reserve_ub`). -/
theorem C84_modest_requests_partial (B : Build) {size align : Nat} (hT : TypeLayout size align)
    (R : RawAlloc α) (nd : Bool) (m0 : Mem α) (ops : List (SeqOp α))
    (hops : nd = true → ∀ op ∈ ops, op.isSlice = false)
    (hasks : B = .release → ∀ op ∈ ops, op.wanted * size < 2 ^ 63)
    (hover : ∃ c ∈ SeqOp.caps ops [] 0, ¬ Representable size align c) :
    Vec.runM B (byteAllocator B size align R.total) nd ops Vec.new m0 = .error .panic :=
  runM_refuses B hT (fun _ hn hb m => byteAllocator_refuses B hT R.total hn hb m)
    (fun _ h0 hc m => byteAllocator_alloc B hT R h0 hc m)
    (fun _ hc p m => byteAllocator_dealloc B hT R.total R hc p m) (defaultAllocator_lawful R) nd ops
    hops (VInv.new defaultFits m0) (by simp [Representable]) hasks hover

/-- A release build never shows undefined behaviour on such histories: a panic, or what the
mathematical sequence does. -/
theorem C84_modest_no_ub_partial (B : Build) {size align : Nat} (hT : TypeLayout size align)
    (R : RawAlloc α) (nd : Bool) (m0 : Mem α) (ops : List (SeqOp α))
    (hops : nd = true → ∀ op ∈ ops, op.isSlice = false)
    (hasks : B = .release → ∀ op ∈ ops, op.wanted * size < 2 ^ 63) :
    Vec.runM B (byteAllocator B size align R.total) nd ops Vec.new m0 = .error .panic ∨
    ∃ outs xs v m, SeqOp.run ops [] = .ok (outs, xs) ∧
      Vec.runM B (byteAllocator B size align R.total) nd ops Vec.new m0 = .ok (outs, v, m) ∧
      v.asSlice m = .ok xs := by
  by_cases hfit : ∀ c ∈ SeqOp.caps ops [] 0, Representable size align c
  · have h := C83_machine_vector B hT R nd m0 ops hops hfit
    cases hr : SeqOp.run ops [] with
    | error e =>
      rw [hr] at h
      rw [Verif.SeqOp.run_error ops [] hr] at h
      exact .inl h
    | ok r =>
      rw [hr] at h
      obtain ⟨v, m, h1, h2, _⟩ := h
      exact .inr ⟨r.1, r.2, v, m, rfl, h1, h2⟩
  · push Not at hfit
    exact .inl (C84_modest_requests_partial B hT R nd m0 ops hops hasks hfit)

/-- Creating a vector with a capacity that cannot exist panics, in a release build if the capacity is
fewer than 2^64 bytes. Missing: larger capacities in release builds, for which it is false
(`C84_release_with_capacity_ub`). -/
theorem C84_modest_with_capacity_partial (B : Build) {size align : Nat} (hT : TypeLayout size align)
    (R : RawAlloc α) (m : Mem α) (n : Nat) (hn : ¬ Representable size align n)
    (hbytes : B = .release → n * size < 2 ^ 64) :
    Vec.withCapacityM B (byteAllocator B size align R.total) n m = .error .panic :=
  withCapacityM_refuses B hT (fun _ hn hb m => byteAllocator_refuses B hT R.total hn hb m) hn hbytes

example : ¬ Representable 8 8 (2 ^ 60) ∧ 2 ^ 60 * 8 < 2 ^ 64 := by
  constructor
  · simp [Representable]
  · omega

/-- C84 is false in release builds in one more way. Let a reachable vector have capacity `cap` and room
for `cap - len` more elements. For every `k` from 1 up to that room, but less than `cap`, the call
`reserve(2^64 - k)` succeeds and takes `k` of the room away: the capacity is then `cap - k`. For `k = cap`
it panics, and for the `k` in between it is undefined behaviour (`C84_release_reserve_ub`). -/
theorem C84_release_reserve_shrinks {size align : Nat} (hT : TypeLayout size align) (R : RawAlloc α)
    (nd : Bool) (m0 : Mem α) (ops : List (SeqOp α))
    (hops : nd = true → ∀ op ∈ ops, op.isSlice = false)
    (hfit : ∀ c ∈ SeqOp.caps ops [] 0, Representable size align c)
    {outs : List (Out α)} {v : Vec} {m : Mem α} {xs : List α} {cap k : Nat}
    (hrun : Vec.runM .release (byteAllocator .release size align R.total) nd ops Vec.new m0 =
      .ok (outs, v, m))
    (hx : v.asSlice m = .ok xs) (hc : v.capacity = .ok cap) (hk0 : 0 < k)
    (hk : k = cap ∨ k ≤ cap - xs.length) :
    if k = cap then
      v.reserveM .release (byteAllocator .release size align R.total) (2 ^ 64 - k) m =
        .error .panic
    else ∃ v' m',
      v.reserveM .release (byteAllocator .release size align R.total) (2 ^ 64 - k) m =
        .ok (v', m') ∧ v'.asSlice m' = .ok xs ∧ v'.capacity = .ok (cap - k) := by
  have hdl : ∀ c, Representable size align c → ∀ (p : Ptr) (m : Mem α),
      (byteAllocator .release size align R.total).dealloc p c m =
        (defaultAllocator R).dealloc p c m :=
    fun c hc p m => byteAllocator_dealloc .release hT R.total R hc p m
  obtain ⟨heq, hend⟩ := runM_agree .release (P := Representable size align)
    (fun c hc => hT.rep_lt hc) (fun c h0 hc m => byteAllocator_alloc .release hT R h0 hc m) hdl
    (defaultAllocator_lawful R) nd ops hops (VInv.new defaultFits m0) (by simp [Representable]) hfit
  rw [heq] at hrun
  obtain ⟨xs', cap', hi, hrep⟩ := hend _ _ _ hrun
  have h1 := hi.slice.symm.trans hx
  have h2 := hi.capacity.symm.trans hc
  cases h1; cases h2
  have hcap := hT.rep_lt hrep
  have hle := hi.len_le
  have hkc : k ≤ cap := by omega
  have h0 : 2 ^ 64 - k ≠ 0 := by omega
  have hus : Build.release.usize (cap + (2 ^ 64 - k)) = .ok (cap - k) := by
    have h1 : ¬ cap + (2 ^ 64 - k) < 2 ^ 64 := by omega
    simp only [Build.usize, h1, if_false]
    rw [show cap + (2 ^ 64 - k) = (cap - k) + 2 ^ 64 by omega, Nat.add_mod_right,
      Nat.mod_eq_of_lt (by omega)]
  split
  · next hkk =>
    subst hkk
    simp only [Vec.reserveM, h0, if_false, hi.len, hc, Exec.ok_bind, hus, Nat.sub_self]
    have : (byteAllocator .release size align R.total).alloc 0 m = .error .panic := by
      simp [byteAllocator, Build.allocLayout, Build.usize]
    simp only [this, Exec.error_bind]
  · next hkk =>
    have hpos : 0 < cap - k := by omega
    have hrep' : Representable size align (cap - k) :=
      Nat.le_trans (Nat.mul_le_mul_right _ (by omega)) hrep
    obtain ⟨_, w1, _, hn | ⟨b0, blk0, ho⟩⟩ := hi
    · have := hn.cap0; omega
    let blk : Block α := ⟨cap - k, .heap, fun _ => none⟩
    obtain ⟨b, hb⟩ : ∃ b, b = R.pick m (cap - k) := ⟨_, rfl⟩
    have hfree : m.live b = none := by rw [hb]; exact R.fresh m (cap - k)
    obtain ⟨m1, hm1⟩ : ∃ m1, m1 = (R.alloc (cap - k) m).2 := ⟨_, rfl⟩
    have he : (byteAllocator .release size align R.total).alloc (cap - k) m = .ok (.loc b 0, m1) := by
      rw [byteAllocator_alloc .release hT R hpos hrep', hm1, hb]
      simp [defaultAllocator, show cap - k ≠ 0 by omega, RawAlloc.alloc]
    have hlive : m1.live = Function.update m.live b (some blk) := by
      rw [hm1, hb]; rfl
    have hp := ho.ptrs
    have hl0 := ho.live_b
    have hbne : b0 ≠ b := by rintro rfl; rw [hl0] at hfree; cases hfree
    have hl1 : m1.live b0 = some blk0 := by rw [hlive, Function.update_of_ne hbne]; exact hl0
    have hlb : m1.live b = some blk := by rw [hlive]; simp
    have hle0 := ho.cap_le
    obtain ⟨m2, hcopy, hl2, -⟩ := Mem.copy_loc (so := 0) (d := 0) (n := xs.length) hl1 hlb
      (by omega) (by show 0 + xs.length ≤ cap - k; omega)
    have h02 : m2.live b0 = some blk0 := by rw [hl2, Function.update_of_ne hbne]; exact hl1
    obtain ⟨m3, hd, hl3, -⟩ := (defaultAllocator_lawful R).dealloc_free b0 cap m2 blk0 h02 ho.fit id
    let blk' : Block α := { blk with
      cells := fun j => if 0 ≤ j ∧ j < 0 + xs.length then blk0.cells (0 + (j - 0)) else blk.cells j }
    have hb3 : m3.live b = some blk' := by
      rw [hl3, Function.update_of_ne (Ne.symm hbne), hl2]; simp [blk']
    have hs3 : blk'.size = cap - k := rfl
    have he3 := Mem.ptrAdd_loc (o := 0) (n := xs.length) hb3 (by omega)
    have hc3 := Mem.ptrAdd_loc (o := 0) (n := cap - k) hb3 (by omega)
    have hcells := ho.cells
    refine ⟨⟨.loc b 0, .loc b xs.length, .loc b (cap - k)⟩, m3, ?_, ?_, ?_⟩
    · have hlen : v.len = .ok xs.length := by rw [hp]; simp [Vec.len, Ptr.offsetFrom]
      simp only [Vec.reserveM, h0, if_false, hlen, hc, Exec.ok_bind, hus, he]
      rw [hp]
      simp only [reduceCtorEq, if_false, hcopy, Exec.ok_bind, hdl cap hrep, hd, he3, hc3,
        Nat.zero_add]
    · have hr := Mem.readRange_loc hb3 xs 0 (by omega) (by
        intro i hi'
        simp only [blk', Nat.zero_le, true_and, Nat.zero_add, Nat.sub_zero, hi', if_true]
        exact hcells i hi')
      simpa [Vec.asSlice, Vec.len, Ptr.offsetFrom] using hr
    · simp [Vec.capacity, Ptr.offsetFrom]

/-- Instance: two of eight places are in use. -/
example : (do
    let (_, v, m) ← Vec.runM .release (byteAllocator .release 8 8 RawAlloc.bump.total) true
      [.reserve 8, .push 1, .push 2] Vec.new (Mem.empty (α := Nat))
    let (v', m') ← v.reserveM .release (byteAllocator .release 8 8 RawAlloc.bump.total) (2 ^ 64 - 5) m
    let xs ← v'.asSlice m'
    let c ← v'.capacity
    .ok (xs, c, (v.reserveM .release (byteAllocator .release 8 8 RawAlloc.bump.total) (2 ^ 64 - 8)
      m).map fun _ => ())) = (.ok ([1, 2], 3, .error .panic) : Exec _) := by decide +kernel

/-- Collecting from an iterator that announces fewer than 2^64 bytes of elements gives its elements in
order or panics, in release builds too. Missing: larger announcements in release builds, for which it
is false (`C149_release_collect_ub`). -/
theorem C149_modest_collect_partial (B : Build) {size align : Nat} (hT : TypeLayout size align)
    (R : RawAlloc α) (m0 : Mem α) (hint : Nat) (items : List α)
    (hhint : B = .release → hint * size < 2 ^ 64) :
    Vec.fromIterM B (byteAllocator B size align R.total) hint items m0 = .error .panic ∨
    ∃ v m, Vec.fromIterM B (byteAllocator B size align R.total) hint items m0 = .ok (v, m) ∧
      v.asSlice m = .ok items := by
  by_cases hr : Representable size align hint
  case neg =>
    left
    simp only [Vec.fromIterM, withCapacityM_refuses B hT
      (fun _ hn hb m => byteAllocator_refuses B hT R.total hn hb m) hr hhint, Exec.error_bind]
  have h := C84_modest_no_ub_partial B hT R false m0 (collectOps hint items) (by simp)
    (fun e op ho => by
      simp only [collectOps, List.mem_cons, List.mem_map] at ho
      rcases ho with rfl | ⟨x, _, rfl⟩
      · have ha := hT.align_pos
        unfold Representable at hr
        simp only [SeqOp.wanted]
        omega
      · simp [SeqOp.wanted])
  rw [fromIterM_run, collect_spec] at h
  cases hf : Vec.fromIterM B (byteAllocator B size align R.total) hint items m0 with
  | error e =>
    rw [hf] at h
    rcases h with h | ⟨outs, xs, v, m, _, h, _⟩
    · cases h; exact .inl rfl
    · cases h
  | ok r =>
    rw [hf] at h
    rcases h with h | ⟨outs, xs, v, m, hs, h, hx⟩
    · cases h
    · cases h; cases hs; exact .inr ⟨_, _, rfl, hx⟩

/-- The same for a fixed vector, inline or spilled. Missing: larger requests in release builds, for
which it is false (`C84_release_fixed_reserve_ub`). -/
theorem C84_modest_fixed_requests_partial (B : Build) {size align : Nat} (hT : TypeLayout size align)
    (R : RawAlloc α) (nd : Bool) (n d : Nat) (hn : 0 < n) (hrep : Representable size align n)
    (m0 : Mem α) (hd : m0.live d = none) (ops : List (SeqOp α))
    (hops : nd = true → ∀ op ∈ ops, op.isSlice = false)
    (hasks : B = .release → ∀ op ∈ ops, op.wanted * size < 2 ^ 63)
    (hover : ∃ c ∈ SeqOp.caps ops [] n, ¬ Representable size align c) :
    ∃ f1 m1, FVec.newIn n d m0 = .ok (f1, m1) ∧
      f1.runM B size align R.total nd ops m1 = .error .panic := by
  obtain ⟨f1, m1, he1, hi1, _⟩ := FInvA.new hn m0 hd
  refine ⟨f1, m1, he1, ?_⟩
  have hA := fixedAllocator_lawful R f1.buf
  rw [← hi1.pool] at hA
  rw [FVec.runM_eq_map, runM_refuses B hT (A := fixedAllocatorM B size align R.total f1.pool)
    (fun _ hn hb m => byteAllocator_refuses B hT R.total hn hb m)
    (fun c h0 hc m => fixedAllocatorM_alloc B hT R f1.pool h0 hc m)
    (fun c hc p m => fixedAllocatorM_dealloc B hT R.total R f1.pool hc p m) hA nd ops hops hi1.inv
    hrep hasks hover]
  rfl

/-- C155 without the limit, in either build, for maps created with `new` or, in a release build, with
a capacity of fewer than 2^64 bytes: the calls return what they return on the finite map, or one of
them panics; a map that is left is dropped without a panic and gives back its memory. There is never
undefined behaviour. -/
theorem C155_any_vector_map (B : Build) {size align : Nat} (hT : TypeLayout size align)
    (R : RawAlloc (K × V)) (lt eq : K → K → Bool) (hw : StrictWeak lt) (hc : Consistent lt eq)
    (nd : Bool) (m0 : Mem (K × V)) (room : Nat) (hroom : B = .release → room * size < 2 ^ 64)
    (ops : List (MapOp K V)) :
    VMap.runFromM B (byteAllocator B size align R.total) lt eq nd room ops m0 = .error .panic ∨
    ∃ v m xs, VMap.runFromM B (byteAllocator B size align R.total) lt eq nd room ops m0 =
        .ok ((MapOp.run eq ops []).1, v, m) ∧
      v.asSlice m = .ok xs ∧ xs.Perm (MapOp.run eq ops []).2 ∧ Increasing lt xs ∧
      ∃ v' m', v.clear (byteAllocator B size align R.total) nd m = .ok (v', m') ∧
        m'.live = m0.live ∧ m'.dropped = m.dropped ++ (if nd then xs else []) := by
  have zero : Representable size align 0 := by simp [Representable]
  by_cases hr : Representable size align room
  case neg =>
    left
    have h1 := withCapacityM_refuses B hT (m := m0)
      (fun _ hn hb m => byteAllocator_refuses B hT R.total hn hb m) hr hroom
    simp only [VMap.runFromM, h1, Exec.error_bind]
  obtain ⟨v1, m1, he1, hi1⟩ := fresh_with_room R room m0
  have hdl : ∀ c, Representable size align c → ∀ (p : Ptr) (m : Mem (K × V)),
      (byteAllocator B size align R.total).dealloc p c m = (defaultAllocator R).dealloc p c m :=
    fun c hc p m => byteAllocator_dealloc B hT R.total R hc p m
  have hcap : Vec.withCapacityM B (byteAllocator B size align R.total) room m0 =
      Vec.new.reserve (defaultAllocator R) room m0 :=
    reserveM_agree B (P := Representable size align) (fun c hc => hT.rep_lt hc)
      (fun c h0 hc m => byteAllocator_alloc B hT R h0 hc m) hdl (len := 0) (cap := 0) rfl
      rfl zero (by rwa [Nat.zero_add])
  obtain ⟨v, m, ys, he, ⟨cap, hi⟩, hs, hp, hdis⟩ :=
    MInv.run (R := R) hw hc nd ops ⟨room, hi1⟩ List.Pairwise.nil List.Pairwise.nil
  simp only [VMap.runFromM, hcap, he1, Exec.ok_bind]
  rcases mapRunM_either B hT R hw hc nd ops hi1 List.Pairwise.nil List.Pairwise.nil hr with
    h1 | ⟨h1, h2⟩
  · exact .inl h1
  · obtain ⟨xs', cap', hi', hcap'⟩ := h2 _ _ _ he
    obtain ⟨m2, hcl, _, hw2, _, _, hef⟩ := hi.clear (defaultAllocator_lawful R) nd
    exact .inr ⟨v, m, ys, h1.trans he, hi.slice, hp, hs.increasing hc hdis, ⟨.null, .null, .null⟩, m2,
      (clear_agree (P := Representable size align) hdl nd hi' hcap').trans hcl,
      funext fun p => hw2 p id, hef.dropped⟩

/-- Instance: pairs of `u64` and the largest capacity that can exist; one more is refused. -/
example : (VMap.runFromM .release (byteAllocator .release 16 8 RawAlloc.bump.total)
    (fun a b => decide (a < b)) (· == ·) true (2 ^ 59 - 1) machineMapOps Mem.empty).map
      (fun r => r.1.length) = .ok 6 ∧
  (VMap.runFromM .release (byteAllocator .release 16 8 RawAlloc.bump.total)
    (fun a b => decide (a < b)) (· == ·) true (2 ^ 59) machineMapOps Mem.empty).map
      (fun _ => ()) = .error .panic := by constructor <;> decide +kernel

example : 2 ^ 59 * 16 < 2 ^ 64 := by omega

/-- In a debug build, and in a release build in which every single `reserve` and every text assigned is
for fewer than 2^63 bytes: a history on a string panics as soon as it needs a capacity that, with the
terminator, cannot exist. With `C147_machine_string_same`, which covers the histories for which all
capacities can exist, this settles what every such history does. Missing: larger requests in release
builds, for which it is false (`C148_release_reserve_ub`). -/
theorem C148_modest_requests_partial (B : Build) (R : RawAlloc UInt8) (m0 : Mem UInt8)
    (ops : List StrOp) (hasks : B = .release → ∀ op ∈ ops, op.wanted < 2 ^ 63)
    (hover : ∃ c ∈ StrOp.caps ops 0 0, ¬ TextFits c) :
    Str.runM B (strAllocM B R.total) ops Vec.new m0 = .error .panic :=
  strRunM_refuses B R ops (VInv.new nullFits m0) (by unfold TextFits; omega) hasks hover

/-- Instance: two texts' worth of room of 2^62 bytes each and a push. -/
example : (∀ op ∈ [StrOp.push 'a', .reserve (2 ^ 62), .push 'b', .reserve (2 ^ 62)],
      op.wanted < 2 ^ 63) ∧
    ∃ c ∈ StrOp.caps [StrOp.push 'a', .reserve (2 ^ 62), .push 'b', .reserve (2 ^ 62)] 0 0,
      ¬ TextFits c := by
  refine ⟨by simp [StrOp.wanted], 1 + 2 ^ 62 + 1 + 2 ^ 62 + 1, ?_, by simp [TextFits]⟩
  decide +kernel

/-- Instance: reserving room for 2^59 eight-byte elements twice, then pushing: neither request is out
of proportion and the second makes a capacity that cannot exist. -/
example : (∀ op ∈ [SeqOp.reserve (2 ^ 59), .push 1, .reserve (2 ^ 59), .push (2 : Nat)],
      op.wanted * 8 < 2 ^ 63) ∧
    ∃ c ∈ SeqOp.caps [SeqOp.reserve (2 ^ 59), .push 1, .reserve (2 ^ 59), .push (2 : Nat)] [] 0,
      ¬ Representable 8 8 c := by
  refine ⟨by simp [SeqOp.wanted], 2 ^ 60, ?_, by simp [Representable]⟩
  decide +kernel

/-- Instance: a fixed vector with two inline elements whose second request is too much. -/
example : ∃ c ∈ SeqOp.caps [SeqOp.push (1 : Nat), .reserve (2 ^ 59), .reserve (2 ^ 59)] [] 2,
    ¬ Representable 8 8 c := by
  refine ⟨2 + 2 ^ 60, ?_, by simp [Representable]⟩
  decide +kernel

example : (do
    let (f, m) ← FVec.newIn 2 7 (Mem.empty : Mem Nat)
    f.runM .release 8 8 RawAlloc.bump.total true [.push 1, .reserve (2 ^ 60)] m).map
      (fun _ => ()) = .error .panic := by decide +kernel

end Verif
